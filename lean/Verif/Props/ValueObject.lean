import Verif.Model.ValueObject
import Verif.Props.TrainValue
import Mathlib.Tactic.IntervalCases

/-!
C134: the states in the buffers of the value trainer, over its whole life.
-/

set_option linter.unusedSectionVars false

namespace NNL.Props

open NNL NNL.Model

section Mem

variable {D L : Type}

/-- All states in the buffers satisfy `P`. -/
def AllData (P : D → Prop) (b : Buffers D L) : Prop := (∀ x ∈ b.advData, P x) ∧ ∀ x ∈ b.randData, P x

theorem getSamples_mem {P : D → Prop} {V : D → Option L} : ∀ {n : ℕ} {draws : List D} {r : List D × List L},
    (∀ x ∈ draws, P x) → getSamples V n draws = some r → ∀ x ∈ r.1, P x
  | 0, _, _, _, h => by simp only [getSamples, Option.some.injEq] at h; subst h; simp
  | n + 1, [], _, _, h => by simp [getSamples] at h
  | n + 1, x :: draws, r, hd, h => by
    rw [getSamples] at h
    split at h
    · obtain ⟨q, hq, rfl⟩ := Option.map_eq_some_iff.1 h
      have := getSamples_mem (fun y hy => hd y (List.mem_cons_of_mem _ hy)) hq
      intro y hy
      rcases List.mem_cons.1 hy with rfl | hy
      · exact hd _ List.mem_cons_self
      · exact this y hy
    · exact getSamples_mem (fun y hy => hd y (List.mem_cons_of_mem _ hy)) h

theorem AllData.trim {P : D → Prop} {b : Buffers D L} (h : AllData P b) (n limit : ℕ) : AllData P (b.trim n limit) := by
  unfold Buffers.trim
  split
  · exact ⟨fun x hx => h.1 x (List.mem_of_mem_drop hx), fun x hx => h.2 x (List.mem_of_mem_drop hx)⟩
  · exact h

theorem AllData.trimNB {P : D → Prop} {b : Buffers D L} (h : AllData P b) (n limit : ℕ) : AllData P (b.trimNB n limit) := by
  unfold Buffers.trimNB
  split
  · exact ⟨fun x hx => h.1 x (List.mem_of_mem_drop hx), h.2⟩
  · exact h

theorem AllData.push {P : D → Prop} {b : Buffers D L} (h : AllData P b) {ad : List D} {al : List L} {rd : List D} {rl : List L}
    (ha : ∀ x ∈ ad, P x) (hr : ∀ x ∈ rd, P x) : AllData P (b.push ad al rd rl) := by
  constructor <;> intro x hx <;> rcases List.mem_append.1 hx with hx | hx
  · exact h.1 x hx
  · exact ha x hx
  · exact h.2 x hx
  · exact hr x hx

/-- All states that a round can use satisfy `P`. -/
def AllDraws (P : D → Prop) (w : Draws D L) : Prop :=
  (∀ x ∈ w.advData, P x) ∧ (∀ x ∈ w.rand, P x) ∧ (∀ x ∈ w.lim, P x) ∧ ∀ x ∈ w.extra, P x

theorem AllData.iter {P : D → Prop} {useLimits : Bool} {numExtra limit : ℕ} {V : D → Option L} {b b' : Buffers D L}
    {w : Draws D L} (h : AllData P b) (hw : AllDraws P w) (e : b.iter useLimits numExtra limit V w = some b') :
    AllData P b' := by
  obtain ⟨w1, w2, w3, w4⟩ := hw
  unfold Buffers.iter at e
  split at e
  swap
  · cases e
  simp only at e
  obtain ⟨r, hr, e⟩ := Option.bind_eq_some_iff.1 e
  obtain ⟨q, hq, rfl⟩ := Option.map_eq_some_iff.1 e
  have hrs : ∀ x ∈ r.1, P x := by
    split at hr
    · obtain ⟨a, ha, hr⟩ := Option.bind_eq_some_iff.1 hr
      obtain ⟨l, hl, rfl⟩ := Option.map_eq_some_iff.1 hr
      intro x hx
      rcases List.mem_append.1 hx with hx | hx
      · exact getSamples_mem w2 ha x hx
      · exact getSamples_mem w3 hl x hx
    · exact getSamples_mem w2 hr
  have hq' := getSamples_mem w4 hq
  exact (((h.trim _ _).push w1 hrs).trim _ _).push hq' hq'

theorem AllData.iterNB {P : D → Prop} {numExtra limit : ℕ} {V : D → Option L} {b b' : Buffers D L}
    {w : Draws D L} (h : AllData P b) (hw : AllDraws P w) (e : b.iterNB numExtra limit V w = some b') :
    AllData P b' := by
  unfold Buffers.iterNB at e
  simp only at e
  obtain ⟨q, hq, rfl⟩ := Option.map_eq_some_iff.1 e
  exact (((h.trimNB _ _).push hw.1 (by simp)).trimNB _ _).push (getSamples_mem hw.2.2.2 hq) (by simp)

theorem AllData.rounds {P : D → Prop} (bench : Bool) (o : ValueOpt) (V : D → Option L) (ws : List (Draws D L))
    (hw : ∀ w ∈ ws, AllDraws P w) (iter : ℕ) (s r : ValueSt D L) (hs : AllData P s.buf) (ws' : List (Draws D L))
    (h : valueRounds bench o V ws iter s = some (r, ws')) : AllData P r.buf := by
  induction ws generalizing iter s with
  | nil =>
    unfold valueRounds at h
    split at h
    · cases h
    · cases h; exact hs
  | cons w ws ih =>
    unfold valueRounds at h
    split at h
    · simp only at h
      split at h
      · cases h
      · rename_i b hb
        split at h
        · cases h
        · refine ih (fun w' hw' => hw w' (List.mem_cons_of_mem _ hw')) _ _ ?_ h
          cases bench
          · exact hs.iterNB (hw w List.mem_cons_self) (by simpa using hb)
          · exact hs.iter (hw w List.mem_cons_self) (by simpa using hb)
    · cases h; exact hs

theorem AllData.train {P : D → Prop} {bench : Bool} {o : ValueOpt} {V : D → Option L} {init : List D} {ws ws' : List (Draws D L)}
    (hi : ∀ x ∈ init, P x) (hw : ∀ w ∈ ws, AllDraws P w) {s r : ValueSt D L} (hs : AllData P s.buf)
    (h : valueTrain bench o V init ws s = some (r, ws')) : AllData P r.buf := by
  unfold valueTrain at h
  obtain ⟨b, hb, h⟩ := Option.bind_eq_some_iff.1 h
  split at h
  · cases h
  · refine AllData.rounds bench o V ws hw 0 _ r ?_ ws' h
    cases bench
    · simp only [Bool.false_eq_true, if_false, Buffers.initNB] at hb
      split at hb
      · obtain ⟨q, hq, rfl⟩ := Option.map_eq_some_iff.1 hb
        exact hs.push (getSamples_mem hi hq) (by simp)
      · cases hb; exact hs
    · simp only [if_true, Buffers.init] at hb
      split at hb
      · obtain ⟨q, hq, rfl⟩ := Option.map_eq_some_iff.1 hb
        exact hs.push (getSamples_mem hi hq) (getSamples_mem hi hq)
      · cases hb; exact hs

end Mem

variable {K : Type} [Field K] [LinearOrder K] [IsStrictOrderedRing K]

theorem randomX0_getD {lo up u : Vec K} (h1 : up.length = lo.length) (h2 : u.length = lo.length) {i : ℕ}
    (hi : i < lo.length) : (randomX0 lo up u).getD i 0 = u.getD i 0 * (up.getD i 0 - lo.getD i 0) + lo.getD i 0 := by
  unfold randomX0 vadd vsub
  simp [List.getD_eq_getElem?_getD, hi, h1 ▸ hi, h2 ▸ hi]

theorem randomX0_length {lo up u : Vec K} (h1 : up.length = lo.length) (h2 : u.length = lo.length) :
    (randomX0 lo up u).length = lo.length := by
  simp [randomX0, h1, h2]

/-- Numbers as `torch.rand` returns them. -/
def UnitDraw (n : ℕ) (u : Vec K) : Prop := u.length = n ∧ ∀ i, i < n → 0 ≤ u.getD i 0 ∧ u.getD i 0 < 1

/-- **C134**: a random initial state lies between the bounds, and every state between the bounds and below the upper ones
can be drawn. -/
theorem C134_random {lo up : Vec K} (hl : up.length = lo.length) (h : ∀ i, i < lo.length → lo.getD i 0 < up.getD i 0)
    (x : Vec K) : (∃ u, UnitDraw lo.length u ∧ randomX0 lo up u = x) ↔
      x.length = lo.length ∧ ∀ i, i < lo.length → lo.getD i 0 ≤ x.getD i 0 ∧ x.getD i 0 < up.getD i 0 := by
  constructor
  · rintro ⟨u, ⟨u1, u2⟩, rfl⟩
    refine ⟨randomX0_length hl u1, fun i hi => ?_⟩
    rw [randomX0_getD hl u1 hi]
    obtain ⟨a, b⟩ := u2 i hi
    have := h i hi
    constructor <;> nlinarith
  · rintro ⟨h1, h2⟩
    let u : Vec K := (List.range lo.length).map fun i => (x.getD i 0 - lo.getD i 0) / (up.getD i 0 - lo.getD i 0)
    have ul : u.length = lo.length := by simp [u]
    have ug : ∀ i, i < lo.length → u.getD i 0 = (x.getD i 0 - lo.getD i 0) / (up.getD i 0 - lo.getD i 0) := by
      intro i hi
      simp only [u, List.getD_eq_getElem?_getD, List.getElem?_map, List.getElem?_range hi, Option.map_some, Option.getD_some]
    refine ⟨u, ⟨ul, fun i hi => ?_⟩, ?_⟩
    · rw [ug i hi]
      have hp := sub_pos.2 (h i hi)
      obtain ⟨a, b⟩ := h2 i hi
      exact ⟨div_nonneg (by linarith) hp.le, (div_lt_one hp).2 (by linarith)⟩
    · apply List.ext_getElem
      · rw [randomX0_length hl ul, h1]
      · intro i hi hi'
        have hi2 : i < lo.length := by rw [← h1]; exact hi'
        have e := randomX0_getD hl ul hi2
        rw [ug i hi2, div_mul_cancel₀ _ (sub_pos.2 (h i hi2)).ne', sub_add_cancel, getD_of_lt _ _ hi, getD_of_lt _ _ hi'] at e
        exact e

theorem randomX0_inBox {lo up u : Vec K} (hl : up.length = lo.length) (h : ∀ i, i < lo.length → lo.getD i 0 ≤ up.getD i 0)
    (hu : UnitDraw lo.length u) : InBox lo up (randomX0 lo up u) := by
  refine ⟨randomX0_length hl hu.1, by rw [randomX0_length hl hu.1, hl], fun i hi => ?_⟩
  rw [randomX0_length hl hu.1] at hi
  rw [randomX0_getD hl hu.1 hi]
  obtain ⟨a, b⟩ := hu.2 i hi
  have := h i hi
  constructor <;> nlinarith

/-- **C134**: an initial state at the limits lies between the bounds, its chosen entry is the lower or the upper bound, and
the other entries are those of a random initial state. -/
theorem C134_limit {lo up u : Vec K} (hl : up.length = lo.length) (h : ∀ i, i < lo.length → lo.getD i 0 ≤ up.getD i 0)
    (hu : UnitDraw lo.length u) {dim : ℕ} (hd : dim < lo.length) (low : Bool) :
    InBox lo up (limitX0 lo up u dim low) ∧
    (limitX0 lo up u dim low).getD dim 0 = (if low then lo.getD dim 0 else up.getD dim 0) ∧
    ∀ i, i ≠ dim → (limitX0 lo up u dim low).getD i 0 = (randomX0 lo up u).getD i 0 := by
  have hb := randomX0_inBox hl h hu
  have e1 : (limitX0 lo up u dim low).getD dim 0 = (if low then lo.getD dim 0 else up.getD dim 0) := by
    have : dim < (randomX0 lo up u).length := by rw [randomX0_length hl hu.1]; exact hd
    simp [limitX0, List.getD_eq_getElem?_getD, this]
  have e2 : ∀ i, i ≠ dim → (limitX0 lo up u dim low).getD i 0 = (randomX0 lo up u).getD i 0 := by
    intro i hi
    simp [limitX0, List.getD_eq_getElem?_getD, Ne.symm hi]
  refine ⟨⟨by simpa [limitX0] using hb.1, by simpa [limitX0] using hb.2.1, fun i hi => ?_⟩, e1, e2⟩
  have hi' : i < (randomX0 lo up u).length := by simpa [limitX0] using hi
  by_cases hc : i = dim
  · subst hc
    rw [e1]
    have := h i hd
    cases low
    · exact ⟨this, le_refl _⟩
    · exact ⟨le_refl _, this⟩
  · rw [e2 i hc]
    exact hb.2.2 i hi'

/-- What one call of `train` (or `train_no_benchmark`) draws: random initial states, initial states at the limits and the
states of the generator of adversarial samples, which lie between the bounds. -/
structure CallDraws (lo up : Vec K) (init : List (Vec K)) (ws : List (Draws (Vec K) (Vec K))) : Prop where
  init : ∀ x ∈ init, ∃ u, UnitDraw lo.length u ∧ x = randomX0 lo up u
  rand : ∀ w ∈ ws, ∀ x ∈ w.rand ++ w.extra, ∃ u, UnitDraw lo.length u ∧ x = randomX0 lo up u
  lim : ∀ w ∈ ws, ∀ x ∈ w.lim, ∃ u dim low, UnitDraw lo.length u ∧ dim < lo.length ∧ x = limitX0 lo up u dim low
  adv : ∀ w ∈ ws, ∀ x ∈ w.advData, InBox lo up x

/-- The states that a trainer can be in: after its constructor, and after a call that returned. -/
inductive Trained (lo up : Vec K) (V : Vec K → Option (Vec K)) (xs vs : Option (List (Vec K))) :
    ValueSt (Vec K) (Vec K) → Prop where
  | new {b} : Buffers.new lo.length xs vs = some b → Trained lo up V xs vs ⟨b, 0⟩
  | train {s r} {bench : Bool} {o : ValueOpt} {init ws ws'} : Trained lo up V xs vs s → CallDraws lo up init ws →
    valueTrain bench o V init ws s = some (r, ws') → Trained lo up V xs vs r

/-- **C134**: through any number of calls of `train` and `train_no_benchmark`, with any options, all states in the buffers
lie between the bounds, if those given to the constructor do. -/
theorem C134_box {lo up : Vec K} (hl : up.length = lo.length) (h : ∀ i, i < lo.length → lo.getD i 0 ≤ up.getD i 0)
    {V : Vec K → Option (Vec K)} {xs vs : Option (List (Vec K))} (hx : ∀ L ∈ xs, ∀ x ∈ L, InBox lo up x)
    {s : ValueSt (Vec K) (Vec K)} (hs : Trained lo up V xs vs s) :
    (∀ x ∈ s.buf.advData, InBox lo up x) ∧ ∀ x ∈ s.buf.randData, InBox lo up x := by
  induction hs with
  | new hb =>
    unfold Buffers.new at hb
    split at hb
    · cases hb; simp
    · split_ifs at hb
      cases hb
      exact ⟨hx _ rfl, hx _ rfl⟩
    · cases hb
  | train _ hd ht ih =>
    refine AllData.train (P := InBox lo up) ?_ ?_ ih ht
    · intro x hx
      obtain ⟨u, hu, rfl⟩ := hd.init x hx
      exact randomX0_inBox hl h hu
    · intro w hw
      refine ⟨hd.adv w hw, fun x hx => ?_, fun x hx => ?_, fun x hx => ?_⟩
      · obtain ⟨u, hu, rfl⟩ := hd.rand w hw x (List.mem_append_left _ hx)
        exact randomX0_inBox hl h hu
      · obtain ⟨u, dim, low, hu, hdim, rfl⟩ := hd.lim w hw x hx
        exact (C134_limit hl h hu hdim low).1
      · obtain ⟨u, hu, rfl⟩ := hd.rand w hw x (List.mem_append_right _ hx)
        exact randomX0_inBox hl h hu

/-- **C134**: the constructor returns exactly if both or none of states and labels are given, the states have the size of the
state of the system, and each label has one entry. Both pairs of buffers are then what was given. -/
theorem C134_new (dim : ℕ) (xs vs : Option (List (Vec K))) (b : Buffers (Vec K) (Vec K)) :
    Buffers.new dim xs vs = some b ↔
      (xs = none ∧ vs = none ∧ b = ⟨[], [], [], []⟩) ∨
      ∃ x v, xs = some x ∧ vs = some v ∧ (∀ r ∈ x, r.length = dim) ∧ (∀ r ∈ v, r.length = 1) ∧ b = ⟨x, v, x, v⟩ := by
  unfold Buffers.new
  rcases xs with _ | x <;> rcases vs with _ | v
  · simp [eq_comm]
  · simp
  · simp
  · simp only
    split_ifs with hc
    · simp only [Option.some.injEq, false_and, false_or]
      constructor
      · rintro rfl; exact ⟨x, v, rfl, rfl, hc.1, hc.2, rfl⟩
      · rintro ⟨x', v', rfl, rfl, -, -, rfl⟩; rfl
    · simp only [false_and, false_or, Option.some.injEq, false_iff]
      rintro ⟨x', v', rfl, rfl, h1, h2, -⟩
      exact hc ⟨h1, h2⟩

/-- **C134**, the failure: the numbers of states and labels are not compared, and `get_state` then compares every state with
the one label. -/
theorem C134_rows_unchecked : ∃ b : Buffers (Vec ℚ) (Vec ℚ),
    Buffers.new 1 (some [[1], [2]]) (some [[5]]) = some b ∧ b.advData.length ≠ b.advLabel.length ∧
    (b.getState (fun x => x.getD 0 0) (fun x => x.getD 0 0) [] [] []).map (·.robustBuffer) = some [16, 9] := by
  refine ⟨⟨[[1], [2]], [[5]], [[1], [2]], [[5]]⟩, ?_, by decide, ?_⟩
  · simp [Buffers.new]
  · norm_num [Buffers.getState, sqErrors]

/-- The list of squared differences. -/
def IsSqErr (label pred out : Vec K) : Prop :=
  out.length = label.length ∧ ∀ i, i < label.length → out.getD i 0 = (label.getD i 0 - pred.getD i 0) ^ 2

theorem sqErrors_spec {label pred : Vec K} (h : label.length = pred.length) :
    ∃ out, sqErrors label pred = some out ∧ IsSqErr label pred out := by
  refine ⟨_, by rw [sqErrors, if_pos h], by simp [h], fun i hi => ?_⟩
  simp [List.getD_eq_getElem?_getD, hi, h ▸ hi]

/-- **C134**: if every state in the buffers, the validation set and the log has a label, `get_state` returns, and each loss is
the squared difference of the label of a state and the value of the model there. -/
theorem C134_state (b : Buffers (Vec K) (Vec K)) (ha : b.advData.length = b.advLabel.length)
    (hr : b.randData.length = b.randLabel.length) (robust baseline : Vec K → K) (xVal : List (Vec K)) (vVal : Vec K)
    (hv : xVal.length = vVal.length) (log : List (List (Vec K) × Vec K)) (hlog : ∀ e ∈ log, e.1.length = e.2.length) :
    ∃ s, b.getState robust baseline xVal vVal log = some s ∧
      IsSqErr (b.advLabel.map fun r => r.getD 0 0) (b.advData.map robust) s.robustBuffer ∧
      IsSqErr vVal (xVal.map robust) s.robustVal ∧
      IsSqErr (b.randLabel.map fun r => r.getD 0 0) (b.randData.map baseline) s.baselineBuffer ∧
      IsSqErr vVal (xVal.map baseline) s.baselineVal ∧
      List.Forall₂ (fun e o => o.1 = e.1 ∧ IsSqErr e.2 (e.1.map robust) o.2) log s.advLog := by
  obtain ⟨o1, e1, h1⟩ := sqErrors_spec (label := b.advLabel.map fun r => r.getD 0 0) (pred := b.advData.map robust) (by simp [ha])
  obtain ⟨o2, e2, h2⟩ := sqErrors_spec (label := vVal) (pred := xVal.map robust) (by simp [hv])
  obtain ⟨o3, e3, h3⟩ := sqErrors_spec (label := b.randLabel.map fun r => r.getD 0 0) (pred := b.randData.map baseline)
    (by simp [hr])
  obtain ⟨o4, e4, h4⟩ := sqErrors_spec (label := vVal) (pred := xVal.map baseline) (by simp [hv])
  have h5 : ∃ o5, (log.mapM fun e => (sqErrors e.2 (e.1.map robust)).map fun l => (e.1, l)) = some o5 ∧
      List.Forall₂ (fun e o => o.1 = e.1 ∧ IsSqErr e.2 (e.1.map robust) o.2) log o5 := by
    induction log with
    | nil => exact ⟨[], rfl, .nil⟩
    | cons e l ih =>
      obtain ⟨o, ho, hf⟩ := ih (fun e' he' => hlog e' (List.mem_cons_of_mem _ he'))
      obtain ⟨q, hq, hq'⟩ := sqErrors_spec (label := e.2) (pred := e.1.map robust)
        (by simp [hlog e List.mem_cons_self])
      exact ⟨(e.1, q) :: o, by simp [List.mapM_cons, hq, ho], .cons ⟨rfl, hq'⟩ hf⟩
  obtain ⟨o5, e5, h5⟩ := h5
  refine ⟨⟨o1, o2, o3, o4, o5⟩, ?_, h1, h2, h3, h4, h5⟩
  unfold Buffers.getState
  simp only [e1, e2, e3, e4, e5, Option.bind_eq_bind, Option.bind_some]

/-- A trainer that was given nothing, after one call with one adversarial and one random state. -/
example : ∃ s, Trained ([-1, 0] : Vec ℚ) [1, 2] (fun x => some [x.getD 0 0]) none none s ∧ s.buf.advData = [[1, 1], [0, 1]] := by
  refine ⟨⟨⟨[[1, 1], [0, 1]], [[7], [0]], [[0, 1], [0, 1]], [[0], [0]]⟩, 1⟩, ?_, rfl⟩
  have hu : UnitDraw 2 ([1 / 2, 1 / 2] : Vec ℚ) := by
    refine ⟨rfl, fun i hi => ?_⟩
    interval_cases i <;> norm_num
  have hx : ([0, 1] : Vec ℚ) = randomX0 [-1, 0] [1, 2] [1 / 2, 1 / 2] := by norm_num [randomX0, vadd, vsub]
  refine Trained.train (bench := true) (o := ⟨0, 0, 1, 1, 1, 10, false⟩) (init := [])
    (ws := [⟨[[1, 1]], [[7]], [[0, 1]], [], [[0, 1]]⟩]) (ws' := []) (Trained.new (b := ⟨[], [], [], []⟩) rfl) ?_ ?_
  · refine ⟨by simp, ?_, by simp, ?_⟩
    · intro w hw x hx'
      simp only [List.mem_singleton] at hw
      subst hw
      simp only [List.cons_append, List.nil_append, List.mem_cons, List.not_mem_nil, or_false, or_self] at hx'
      exact ⟨_, hu, hx'.trans hx⟩
    · intro w hw x hx'
      simp only [List.mem_singleton] at hw
      subst hw
      simp only [List.mem_singleton] at hx'
      subst hx'
      refine ⟨rfl, rfl, fun i hi => ?_⟩
      simp only [List.length_cons, List.length_nil] at hi
      interval_cases i <;> norm_num
  · simp [valueTrain, Buffers.init, Buffers.initOk, valueRounds, Buffers.iter, getSamples, Buffers.trim, Buffers.push,
      Buffers.stepOk, valueInner]

end NNL.Props
