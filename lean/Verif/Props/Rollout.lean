import Verif.Model.Rollout
import Verif.Props.Hybrid

/-!
# C45, C64: simulated cost-to-go
-/

set_option linter.unusedSectionVars false

namespace NNL.Props

open NNL NNL.Spec NNL.Model

variable {K : Type*} [Field K] [LinearOrder K] [IsStrictOrderedRing K]

/-- A simulated trajectory from `x0`: every state but the last is followed by its successor and is not at the
goal. -/
structure Sim (S : AutoHybrid K) (goal : Option (Vec K)) (x0 : Vec K) (xs : List (Vec K)) : Prop where
  start : xs[0]? = some x0
  step : ∀ i, i + 1 < xs.length → S.stepForward (xs.getD i []) = some (xs.getD (i + 1) [])
  go : ∀ i, i + 1 < xs.length → nearGoal goal (xs.getD i []) = false

/-- The squared distance to the goal decides. -/
theorem nearGoal_iff (goal : Option (Vec K)) (x : Vec K) : nearGoal goal x = true ↔
    ∃ g, goal = some g ∧ ((vsub x g).map fun a => a * a).sum < (1 / 1000) ^ 2 := by
  cases goal with
  | none => simp [nearGoal]
  | some g => 
    simp only [nearGoal, decide_eq_true_eq, Option.some.injEq, exists_eq_left']
    norm_num

theorem firstSucc_eq (S : AutoHybrid K) (x : Vec K) (hx : x.length = S.xdim) :
    firstSucc S x = S.stepForward x := by
  simp only [firstSucc, AutoHybrid.stepForward, AutoHybrid.mode, if_pos hx, Option.join_some]
  rfl

/-- The shapes are those checked by `add_mode`. -/
theorem stepForward_length {S : AutoHybrid K} (hS : ∀ md ∈ S.modes, md.toH.Ok S.xdim 0) {x y : Vec K}
    (h : S.stepForward x = some y) : y.length = S.xdim := by
  rw [C43_auto_step] at h
  unfold AutoHybrid.possibleDx at h
  split at h
  · simp only [Option.bind_some] at h
    have := List.mem_of_head? h
    simp only [List.mem_map, List.mem_filter] at this
    obtain ⟨md, ⟨hmd, -⟩, rfl⟩ := this
    have ok := hS md hmd
    have h1 : md.A.length = S.xdim := ok.rowsA
    have h2 : md.g.length = S.xdim := ok.c
    simp [vadd, matVec, h1, h2]
  · cases h

theorem sum_drop_eq (f : Vec K → K) : ∀ (xs : List (Vec K)) (i : ℕ), i < xs.length →
    ((xs.drop i).map f).sum = (xs.map f).sum - ((xs.take (i + 1)).map f).sum + f (xs.getD i [])
  | [], i, h => by simp at h
  | x :: xs, 0, _ => by simp [add_comm]
  | x :: xs, i + 1, h => by
    have := sum_drop_eq f xs i (by simpa using h)
    simp only [List.drop_succ_cons, this, List.map_cons, List.sum_cons, List.take_succ_cons]
    simp [List.getD]

/-- What the loop maintains. -/
structure RollInv (S : AutoHybrid K) (goal : Option (Vec K)) (cost : Vec K → K) (x0 : Vec K) (r : Roll K) :
    Prop where
  sim : Sim S goal x0 r.xs
  ne : r.xs ≠ []
  len : ∀ x ∈ r.xs, x.length = S.xdim
  steps : r.steps = r.xs.map cost
  lenF : r.fromStart.length = r.xs.length
  fromStart : ∀ i, i < r.xs.length → r.fromStart.getD i 0 = ((r.xs.take (i + 1)).map cost).sum
  total : r.total = (r.xs.map cost).sum

theorem getLastD_getD {α : Type*} (l : List α) (h : l ≠ []) (a b : α) : l.getLastD a = l.getD (l.length - 1) b := by
  rw [List.getLastD_eq_getLast?, List.getLast?_eq_getElem?, List.getD_eq_getElem?_getD]
  have : l.length - 1 < l.length := by
    have := List.length_pos_of_ne_nil h
    omega
  rw [List.getElem?_eq_getElem this]
  rfl

theorem Sim.push {S : AutoHybrid K} {goal : Option (Vec K)} {x0 : Vec K} {xs : List (Vec K)}
    (h : Sim S goal x0 xs) (hne : xs ≠ []) {y : Vec K} (hy : S.stepForward (xs.getLastD []) = some y)
    (hg : nearGoal goal (xs.getLastD []) = false) : Sim S goal x0 (xs ++ [y]) := by
  have hp := List.length_pos_of_ne_nil hne
  rw [getLastD_getD xs hne [] []] at hy hg
  refine ⟨?_, fun i hi => ?_, fun i hi => ?_⟩
  · rw [List.getElem?_append_left hp]
    exact h.start
  · simp only [List.length_append, List.length_singleton] at hi
    rcases Nat.lt_or_ge (i + 1) xs.length with h1 | h1
    · rw [getD_append_lt _ _ _ _ (by omega), getD_append_lt _ _ _ _ h1]
      exact h.step i h1
    · have e : i = xs.length - 1 := by omega
      rw [getD_append_lt _ _ _ _ (by omega)]
      have : (xs ++ [y]).getD (i + 1) [] = y := by
        have e2 : i + 1 = xs.length := by omega
        rw [e2]
        simp [List.getD]
      rw [this, e]
      exact hy
  · simp only [List.length_append, List.length_singleton] at hi
    rw [getD_append_lt _ _ _ _ (by omega)]
    rcases Nat.lt_or_ge (i + 1) xs.length with h1 | h1
    · exact h.go i h1
    · have e : i = xs.length - 1 := by omega
      rw [e]
      exact hg

theorem rollInv_push {S : AutoHybrid K} {goal : Option (Vec K)} {cost : Vec K → K} {x0 : Vec K} {r : Roll K}
    (hS : ∀ md ∈ S.modes, md.toH.Ok S.xdim 0) (h : RollInv S goal cost x0 r) {y : Vec K}
    (hy : firstSucc S (r.xs.getLastD []) = some y) (hg : nearGoal goal (r.xs.getLastD []) = false) :
    RollInv S goal cost x0 ⟨r.xs ++ [y], r.fromStart ++ [r.fromStart.getLastD 0 + cost y],
      r.steps ++ [cost y], r.total + cost y⟩ := by
  have hp := List.length_pos_of_ne_nil h.ne
  have hl : (r.xs.getLastD []).length = S.xdim := by
    apply h.len
    rw [List.getLastD_eq_getLast?, List.getLast?_eq_some_getLast h.ne]
    exact List.getLast_mem h.ne
  rw [firstSucc_eq S _ hl] at hy
  refine ⟨h.sim.push h.ne hy hg, by simp, ?_, by simp [h.steps], by simp [h.lenF], fun i hi => ?_, by simp [h.total]⟩
  · intro x hx
    simp only [List.mem_append, List.mem_singleton] at hx
    rcases hx with hx | rfl
    · exact h.len x hx
    · exact stepForward_length hS hy
  · simp only [List.length_append, List.length_singleton] at hi
    rcases Nat.lt_or_ge i r.xs.length with h1 | h1
    · rw [getD_append_lt _ _ _ _ (by rw [h.lenF]; exact h1), h.fromStart i h1, List.take_append_of_le_length (by omega)]
    · have e : i = r.xs.length := by omega
      subst e
      have hne : r.fromStart ≠ [] := by
        intro e
        have := h.lenF
        rw [e] at this
        simp at this
        omega
      have e1 : (r.fromStart ++ [r.fromStart.getLastD 0 + cost y]).getD r.xs.length 0 =
          r.fromStart.getLastD 0 + cost y := by
        rw [← h.lenF]
        simp [List.getD]
      rw [e1, getLastD_getD _ hne 0 0, h.lenF, h.fromStart _ (by omega)]
      have e2 : r.xs.length - 1 + 1 = r.xs.length := by omega
      rw [e2, List.take_length, List.take_of_length_le (by simp)]
      simp

theorem rollLoop_spec {S : AutoHybrid K} {goal : Option (Vec K)} {cost : Vec K → K} {x0 : Vec K}
    (hS : ∀ md ∈ S.modes, md.toH.Ok S.xdim 0) : ∀ (k : ℕ) (r : Roll K), RollInv S goal cost x0 r →
    (∀ r', rollLoop S goal cost k r = some r' → RollInv S goal cost x0 r' ∧ r'.xs.length ≤ r.xs.length + k ∧
      (r'.xs.length = r.xs.length + k ∨ nearGoal goal (r'.xs.getLastD []) = true)) ∧
    (rollLoop S goal cost k r = none ↔ ∃ xs, Sim S goal x0 (r.xs ++ xs) ∧ xs.length < k ∧
      nearGoal goal ((r.xs ++ xs).getLastD []) = false ∧ S.stepForward ((r.xs ++ xs).getLastD []) = none)
  | 0, r, h => by
    refine ⟨fun r' e => ?_, ?_⟩
    · simp only [rollLoop, Option.some.injEq] at e
      subst e
      exact ⟨h, by omega, Or.inl (by omega)⟩
    · simp [rollLoop]
  | k + 1, r, h => by
    have hl : (r.xs.getLastD []).length = S.xdim := by
      apply h.len
      rw [List.getLastD_eq_getLast?, List.getLast?_eq_some_getLast h.ne]
      exact List.getLast_mem h.ne
    have hp := List.length_pos_of_ne_nil h.ne
    -- a trajectory that extends the present one takes the present step
    have key : ∀ xs, Sim S goal x0 (r.xs ++ xs) → xs ≠ [] → nearGoal goal (r.xs.getLastD []) = false ∧
        ∃ y ys, xs = y :: ys ∧ S.stepForward (r.xs.getLastD []) = some y := by
      intro xs hs hne
      cases xs with
      | nil => exact absurd rfl hne
      | cons y ys =>
        have g1 := hs.go (r.xs.length - 1) (by simp; omega)
        have g2 := hs.step (r.xs.length - 1) (by simp; omega)
        rw [getD_append_lt _ _ _ _ (by omega), ← getLastD_getD r.xs h.ne [] []] at g1 g2
        refine ⟨g1, y, ys, rfl, ?_⟩
        rw [g2]
        have e : r.xs.length - 1 + 1 = r.xs.length := by omega
        rw [e]
        simp [List.getD]
    unfold rollLoop
    by_cases hg : nearGoal goal (r.xs.getLastD []) = true
    · simp only [hg, if_true]
      refine ⟨fun r' e => ?_, ?_⟩
      · simp only [Option.some.injEq] at e
        subst e
        exact ⟨h, by omega, Or.inr hg⟩
      · simp only [reduceCtorEq, false_iff]
        rintro ⟨xs, hs, -, hn, -⟩
        by_cases hx : xs = []
        · subst hx
          rw [List.append_nil, hg] at hn
          cases hn
        · have := (key xs hs hx).1
          rw [hg] at this
          cases this
    · have hg' : nearGoal goal (r.xs.getLastD []) = false := by simpa using hg
      simp only [hg', Bool.false_eq_true, if_false]
      cases hf : firstSucc S (r.xs.getLastD []) with
      | none =>
        refine ⟨fun r' e => (by cases e), ?_⟩
        simp only [true_iff]
        rw [firstSucc_eq S _ hl] at hf
        exact ⟨[], by simpa using h.sim, by simp, by simpa using hg', by simpa using hf⟩
      | some y =>
        have hinv := rollInv_push hS h hf hg'
        obtain ⟨i1, i2⟩ := rollLoop_spec hS k _ hinv
        refine ⟨fun r' e => ?_, ?_⟩
        · obtain ⟨a, b, c⟩ := i1 r' e
          simp only [List.length_append, List.length_singleton] at b c
          exact ⟨a, by omega, c.imp (fun q => by omega) id⟩
        · simp only
          rw [i2]
          rw [firstSucc_eq S _ hl] at hf
          constructor
          · rintro ⟨xs, a, b, c, d⟩
            exact ⟨y :: xs, by simpa using a, by simpa using b, by simpa using c, by simpa using d⟩
          · rintro ⟨xs, a, b, c, d⟩
            by_cases hx : xs = []
            · subst hx
              rw [List.append_nil, hf] at d
              cases d
            · obtain ⟨-, y', ys, rfl, e⟩ := key xs a hx
              rw [hf] at e
              cases e
              exact ⟨ys, by simpa using a, by simpa using b, by simpa using c, by simpa using d⟩

theorem rollInv_start (S : AutoHybrid K) (goal : Option (Vec K)) (cost : Vec K → K) (x0 : Vec K)
    (hx : x0.length = S.xdim) : RollInv S goal cost x0 ⟨[x0], [cost x0], [cost x0], cost x0⟩ := by
  refine ⟨⟨by simp, by simp, by simp⟩, by simp, by simp [hx], by simp, by simp, fun i hi => ?_, by simp⟩
  have : i = 0 := by simpa using hi
  subst this
  simp

/-- C45. The states returned are the simulation of the system, it stops at the horizon or at the goal, the
costs are the sums of the costs from each state to the end, and the total is the first of them. -/
theorem C45_suffix_sums {S : AutoHybrid K} (hS : ∀ md ∈ S.modes, md.toH.Ok S.xdim 0) {x0 : Vec K} {N : ℕ}
    {cost : Vec K → K} {goal : Option (Vec K)} {total : K} {xs : List (Vec K)} {costs : List K}
    (h : costToGo S x0 N cost goal = some (total, xs, costs)) :
    Sim S goal x0 xs ∧ xs.length ≤ N + 1 ∧
      (xs.length = N + 1 ∨ nearGoal goal (xs.getLastD []) = true) ∧
      costs.length = xs.length ∧ (∀ i, i < xs.length → costs.getD i 0 = ((xs.drop i).map cost).sum) ∧
      total = costs.getD 0 0 := by
  unfold costToGo at h
  split at h
  · rename_i hx
    cases hr : rollLoop S goal cost N ⟨[x0], [cost x0], [cost x0], cost x0⟩ with
    | none => rw [hr] at h; cases h
    | some r =>
      rw [hr] at h
      simp only [Option.some.injEq, Prod.mk.injEq] at h
      obtain ⟨rfl, rfl, rfl⟩ := h
      obtain ⟨i, a, b⟩ := (rollLoop_spec hS N _ (rollInv_start S goal cost x0 hx.1)).1 r hr
      simp only [List.length_singleton] at a b
      have hc : ∀ i, i < r.xs.length →
          ((List.range r.xs.length).map fun i => r.total - r.fromStart.getD i 0 + r.steps.getD i 0).getD i 0 =
          ((r.xs.drop i).map cost).sum := by
        intro j hj
        rw [sum_drop_eq cost r.xs j hj, ← i.total, ← i.fromStart j hj]
        have e : r.steps.getD j 0 = cost (r.xs.getD j []) := by
          rw [i.steps]
          simp [List.getD, List.getElem?_map, List.getElem?_eq_getElem hj]
        rw [← e]
        simp [List.getD, hj]
      refine ⟨i.sim, by omega, b.imp (fun q => by omega) id, by simp, hc, ?_⟩
      rw [hc 0 (List.length_pos_of_ne_nil i.ne), i.total]
      simp
  · cases h

/-- C45. The function fails exactly if the simulation reaches, before the horizon and away from the goal, a
state in no mode (or the shapes are wrong). -/
theorem C45_raises {S : AutoHybrid K} (hS : ∀ md ∈ S.modes, md.toH.Ok S.xdim 0) {x0 : Vec K} (N : ℕ)
    (cost : Vec K → K) (goal : Option (Vec K)) (hx : x0.length = S.xdim) (hg : ∀ g ∈ goal, g.length = S.xdim) :
    costToGo S x0 N cost goal = none ↔ ∃ xs, Sim S goal x0 xs ∧ xs.length ≤ N ∧
      nearGoal goal (xs.getLastD []) = false ∧ S.stepForward (xs.getLastD []) = none := by
  have := (rollLoop_spec hS N _ (rollInv_start S goal cost x0 hx)).2
  unfold costToGo
  rw [if_pos ⟨hx, hg⟩]
  have e : (∃ xs, Sim S goal x0 xs ∧ xs.length ≤ N ∧
      nearGoal goal (xs.getLastD []) = false ∧ S.stepForward (xs.getLastD []) = none) ↔
      ∃ xs, Sim S goal x0 ([x0] ++ xs) ∧ xs.length < N ∧
      nearGoal goal (([x0] ++ xs).getLastD []) = false ∧ S.stepForward (([x0] ++ xs).getLastD []) = none := by
    constructor
    · rintro ⟨xs, a, b⟩
      cases xs with
      | nil => have := a.start; simp at this
      | cons y ys =>
        have := a.start
        simp only [List.getElem?_cons_zero, Option.some.injEq] at this
        subst this
        exact ⟨ys, a, by simpa [Nat.succ_le_iff] using b.1, b.2⟩
    · rintro ⟨xs, a, b⟩
      exact ⟨[x0] ++ xs, a, by simpa [Nat.succ_le_iff] using b.1, b.2⟩
  rw [e, ← this]
  cases rollLoop S goal cost N ⟨[x0], [cost x0], [cost x0], cost x0⟩ <;> simp

/-! ## C64 -/

/-- The pairs kept from one simulation: those whose state the pruner does not select. -/
def kept (pruner : Option (Vec K → Bool)) (ps : List (Vec K × K)) : List (Vec K × K) :=
  match pruner with
  | none => ps
  | some f => ps.filter fun p => f p.1 = false

theorem kept_pruned (pruner : Option (Vec K → Bool)) (ps : List (Vec K × K)) : ps.filter (keepPair pruner) = kept pruner ps := by
  cases pruner with
  | none => exact List.filter_eq_self.2 fun _ _ => rfl
  | some f =>
    refine List.filter_congr fun p _ => ?_
    show (!f p.1) = decide (f p.1 = false)
    cases f p.1 <;> rfl

/-- C64, what holds: if every simulation succeeds, the result is the list of all pairs that are not pruned. -/
theorem C64_all_partial (S : AutoHybrid K) (N : ℕ) (cost : Vec K → K) (goal : Option (Vec K))
    (pruner : Option (Vec K → Bool)) : ∀ (x0s : List (Vec K)) (l : List (Vec K × K)),
    discreteSamples S x0s N cost goal pruner = .ok l ↔
      (∀ x0 ∈ x0s, (costToGo S x0 N cost goal).isSome) ∧
      l = x0s.flatMap fun x0 => match costToGo S x0 N cost goal with
        | some r => kept pruner (r.2.1.zip r.2.2)
        | none => []
  | [], l => by
    simp only [discreteSamples, sampleLoop, Except.ok.injEq, List.not_mem_nil, false_implies, implies_true,
      true_and, List.flatMap_nil]
    exact eq_comm
  | x0 :: x0s, l => by
    have ih := C64_all_partial S N cost goal pruner x0s
    unfold discreteSamples at ih ⊢
    unfold sampleLoop
    cases h : costToGo S x0 N cost goal with
    | none => simp [h, discreteSim]
    | some r =>
      have e : discreteSim S N cost goal x0 = .ok (r.2.1.zip r.2.2) := by simp [discreteSim, h]
      rw [e]
      simp only
      cases hl : sampleLoop (discreteSim S N cost goal) pruner x0s with
      | error e =>
        simp only [reduceCtorEq, List.mem_cons, forall_eq_or_imp, h, Option.isSome_some, true_and,
          List.flatMap_cons, false_iff, not_and]
        intro hall
        have := (ih _).2 ⟨hall, rfl⟩
        rw [hl] at this
        cases this
      | ok r =>
        obtain ⟨h1, h2⟩ := (ih r).1 hl
        simp only [Except.ok.injEq, List.mem_cons, forall_eq_or_imp, h, Option.isSome_some, true_and,
          List.flatMap_cons, h2, kept_pruned]
        constructor
        · rintro rfl
          exact ⟨h1, rfl⟩
        · rintro ⟨-, rfl⟩
          rfl

/-- C64 for simulations that raise `StepForwardException` (the continuous-time ones): samples that leave the
domain are skipped. -/
theorem C64_skips (sim : Vec K → Except SimExc (List (Vec K × K))) (hsim : ∀ x, sim x ≠ .error .assertion)
    (pruner : Option (Vec K → Bool)) : ∀ x0s : List (Vec K), sampleLoop sim pruner x0s =
      .ok (x0s.flatMap fun x0 => match sim x0 with | .ok ps => kept pruner ps | .error _ => [])
  | [] => rfl
  | x0 :: x0s => by
    unfold sampleLoop
    have ih := C64_skips sim hsim pruner x0s
    cases h : sim x0 with
    | ok ps => simp [ih, h, kept_pruned]
    | error e =>
      cases e with
      | assertion => exact absurd h (hsim x0)
      | stepForward => simp [ih, h]

/-- The system `x⁺ = 2 x` on `[-1, 1]`. -/
def exDouble : AutoHybrid ℚ := { xdim := 1, modes := [⟨[[2]], [0], [[1], [-1]], [1, 1]⟩] }

/-- C64 as documented ("only includes the states starting from which the trajectory always stays within the
domain") fails for discrete-time systems: one sample that leaves the domain makes the whole call raise, although
the other sample stays. -/
theorem C64_counterexample :
    costToGo exDouble [0] 3 (fun x => x.sum) none = some (0, [[0], [0], [0], [0]], [0, 0, 0, 0]) ∧
    discreteSamples exDouble [[0], [1]] 3 (fun x => x.sum) none none = .error .assertion := by
  have h0 : costToGo exDouble [0] 3 (fun x => x.sum) none = some (0, [[0], [0], [0], [0]], [0, 0, 0, 0]) := by
    decide +kernel
  have h1 : costToGo exDouble [1] 3 (fun x => x.sum) none = none := by decide +kernel
  refine ⟨h0, ?_⟩
  simp [discreteSamples, sampleLoop, discreteSim, h0, h1]

/-- C45 on an example: the goal is reached after two steps, costs are suffix sums. -/
example : costToGo exAuto [-1] 5 (fun x => x.sum) (some [1/4]) =
    some (-1/4, [[-1], [1/2], [1/4]], [-1/4, 3/4, 1/4]) := by
  decide +kernel

example : ∀ md ∈ exAuto.modes, md.toH.Ok exAuto.xdim 0 := by decide

end NNL.Props
