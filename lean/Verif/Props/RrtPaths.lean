import Verif.Props.RrtStar
import Verif.Model.UnicycleTrajOpt

/-!
# C93: the paths stored in the tree of `RrtStar`
-/

set_option linter.unusedSectionVars false

namespace NNL.Props

open NNL.Model NNL.Spec NNL.Model.RrtStar

/-- The three lists of a stored path. -/
abbrev Triple (K : Type) := List (Fin 3 → K) × List (Fin 2 → K) × List K

section

variable {K : Type} [Field K] [LinearOrder K]

/-- Every stored path is in the relation `R` with the stored cost. -/
def Stored (R : K → Triple K → Prop) (t : RrtStar K) : Prop :=
  t.costParent.length = t.toParent.length ∧
    ∀ (i : ℕ) (e : Triple K), t.toParent[i]? = some (some e) → ∃ c, t.costParent[i]? = some c ∧ R c e

theorem stored_init (R : K → Triple K → Prop) (goal : Fin 3 → K) : Stored R (init goal) := by
  refine ⟨rfl, fun i e h => ?_⟩
  rcases i with _ | i <;> simp [init] at h

theorem stored_addNode {R : K → Triple K → Prop} {t : RrtStar K} (h : Stored R t) {x : Fin 3 → K} {p : ℕ} {c : K}
    {path : Triple K} (hR : R c path) {r : RrtStar K × ℕ} (hr : t.addNode x p c path = some r) : Stored R r.1 := by
  simp only [addNode, Option.bind_eq_bind, Option.bind_eq_some_iff, Option.some.injEq] at hr
  obtain ⟨_, _, _, _, rfl⟩ := hr
  refine ⟨by simp [h.1], fun i e hi => ?_⟩
  rcases lt_or_ge i t.toParent.length with hl | hl
  · rw [List.getElem?_append_left hl] at hi
    obtain ⟨c', h1, h2⟩ := h.2 i e hi
    exact ⟨c', by rw [List.getElem?_append_left (h.1 ▸ hl)]; exact h1, h2⟩
  · obtain rfl : i = t.toParent.length := by
      have := (List.getElem?_eq_some_iff.1 hi).1
      simp at this
      omega
    simp only [List.getElem?_concat_length, Option.some.injEq] at hi
    subst hi
    exact ⟨c, by rw [← h.1]; simp, hR⟩

theorem visit_stored {R : K → Triple K → Prop} : ∀ (cs : List ℕ) {t : RrtStar K} {q : List (Finset ℕ)}, Stored R t →
    ∀ {r}, t.visit q cs = some r → Stored R r.1
  | [], t, q, h, r, hr => by
    simp only [visit, Option.some.injEq] at hr
    exact hr ▸ h
  | c :: cs, t, q, h, r, hr => by
    simp only [visit, Option.bind_eq_bind, Option.bind_eq_some_iff] at hr
    obtain ⟨_, _, _, _, _, _, _, _, _, _, hr⟩ := hr
    refine visit_stored cs ?_ hr
    exact h

theorem descend_stored {R : K → Triple K → Prop} {ord : Finset ℕ → List ℕ} : ∀ (n : ℕ) {q : List (Finset ℕ)} {t : RrtStar K},
    Stored R t → ∀ {t'}, descend ord n q t = some t' → Stored R t'
  | 0, [], t, h, t', hr => by
    simp only [descend, Option.some.injEq] at hr
    exact hr ▸ h
  | 0, _ :: _, t, h, t', hr => by simp [descend] at hr
  | n + 1, [], t, h, t', hr => by
    simp only [descend, Option.some.injEq] at hr
    exact hr ▸ h
  | n + 1, s :: q, t, h, t', hr => by
    simp only [descend, Option.bind_eq_bind, Option.bind_eq_some_iff] at hr
    obtain ⟨r, h1, h2⟩ := hr
    exact descend_stored n (visit_stored _ h h1) h2

theorem stored_update {R : K → Triple K → Prop} {ord : Finset ℕ → List ℕ} {t : RrtStar K} (h : Stored R t) {i p : ℕ} {c : K}
    {path : Triple K} (hR : R c path) {t' : RrtStar K} (hr : t.updateParent ord i p c path = some t') : Stored R t' := by
  simp only [updateParent, Option.bind_eq_bind, Option.bind_eq_some_iff] at hr
  obtain ⟨_, _, _, _, _, _, hr⟩ := hr
  split_ifs at hr
  simp only [Option.bind_eq_some_iff] at hr
  obtain ⟨_, _, _, _, _, _, hr⟩ := hr
  refine descend_stored _ ⟨?_, fun j e hj => ?_⟩ hr
  · simp [h.1]
  · simp only at hj ⊢
    by_cases hji : i = j
    · subst hji
      have hl : i < t.toParent.length := by
        have := (List.getElem?_eq_some_iff.1 hj).1
        simpa using this
      rw [List.getElem?_set_self hl] at hj
      simp only [Option.some.injEq] at hj
      subst hj
      exact ⟨c, List.getElem?_set_self (h.1 ▸ hl), hR⟩
    · rw [set_ne hji] at hj ⊢
      exact h.2 j e hj

theorem stored_rewires {R : K → Triple K → Prop} {ord : Finset ℕ → List ℕ} {n : ℕ} {c : K} :
    ∀ (es : List (ℕ × Option (Path K))) {t : RrtStar K}, Stored R t →
    (∀ e ∈ es, ∀ q ∈ e.2, R q.cost (q.x.reverse, q.u.reverse, q.dt.reverse)) → ∀ {t'},
    es.foldlM (rewire ord n c) t = some t' → Stored R t'
  | [], t, h, _, t', hr => by
    simp only [List.foldlM_nil, Option.pure_def, Option.some.injEq] at hr
    exact hr ▸ h
  | e :: es, t, h, he, t', hr => by
    rw [List.foldlM_cons, Option.bind_eq_bind, Option.bind_eq_some_iff] at hr
    obtain ⟨t1, h1, h2⟩ := hr
    refine stored_rewires es ?_ (fun e' he' => he e' (by simp [he'])) h2
    have hq := he e (by simp)
    simp only [rewire, Option.bind_eq_bind, Option.bind_eq_some_iff] at h1
    obtain ⟨r, -, h1⟩ := h1
    cases hqe : e.2 with
    | none =>
      rw [hqe] at h1
      simp only [Option.some.injEq] at h1
      exact h1 ▸ h
    | some q =>
      rw [hqe] at h1
      simp only at h1
      split_ifs at h1
      · exact stored_update h (hq q hqe) h1
      · simp only [Option.some.injEq] at h1
        exact h1 ▸ h

theorem stored_connect {R : K → Triple K → Prop} {ord : Finset ℕ → List ℕ}
    {findPath : (Fin 3 → K) → (Fin 3 → K) → Option (Path K)} {t : RrtStar K} (h : Stored R t)
    (hR : ∀ x s q, findPath x s = some q → R q.cost (q.x, q.u, q.dt) ∧ R q.cost (q.x.reverse, q.u.reverse, q.dt.reverse))
    {x : Fin 3 → K} {nb : List ℕ} {r} (hr : t.connect ord findPath x nb = some r) : Stored R r.1 := by
  simp only [RrtStar.connect, Option.bind_eq_bind, Option.bind_eq_some_iff] at hr
  obtain ⟨paths, hp, hr⟩ := hr
  have hpaths : ∀ o ∈ paths, ∃ s, o = findPath x s := by
    clear hr
    induction nb generalizing paths with
    | nil =>
      simp only [List.mapM_nil, Option.pure_def, Option.some.injEq] at hp
      simp [← hp]
    | cons i nb ih =>
      rw [List.mapM_cons] at hp
      simp only [Option.bind_eq_bind, Option.bind_eq_some_iff, Option.map_eq_some_iff, Option.pure_def, Option.some.injEq] at hp
      obtain ⟨o, ⟨s, -, rfl⟩, ps, hps, rfl⟩ := hp
      intro o ho
      rcases List.mem_cons.1 ho with rfl | ho
      · exact ⟨s, rfl⟩
      · exact ih ps hps o ho
  split_ifs at hr
  · simp only [Option.bind_eq_some_iff, Option.some.injEq] at hr
    obtain ⟨roots, -, b, -, p, -, o, ho, q, hq, a, -, tn, htn, t', ht', rfl⟩ := hr
    subst hq
    obtain ⟨s, hs⟩ := hpaths _ (List.mem_of_getElem? ho)
    refine stored_rewires _ (stored_addNode h (hR x s q hs.symm).1 htn) ?_ ht'
    intro e he q' hq'
    obtain ⟨s', hs'⟩ := hpaths e.2 (List.of_mem_zip he).2
    rw [hs'] at hq'
    exact (hR x s' q' hq').2
  · simp only [Option.some.injEq] at hr
    exact hr ▸ h

theorem stored_grow {R : K → Triple K → Prop} {ord : Finset ℕ → List ℕ}
    {findPath : (Fin 3 → K) → (Fin 3 → K) → Option (Path K)}
    (hR : ∀ x s q, findPath x s = some q → R q.cost (q.x, q.u, q.dt) ∧ R q.cost (q.x.reverse, q.u.reverse, q.dt.reverse))
    (maxNodes : ℕ) : ∀ (rounds : List (Round K)) {t : RrtStar K}, Stored R t → ∀ {t'},
    t.growTree ord findPath maxNodes rounds = some t' → Stored R t'
  | [], t, h, t', hr => by
    simp only [RrtStar.growTree, Option.some.injEq] at hr
    exact hr ▸ h
  | e :: es, t, h, t', hr => by
    rw [RrtStar.growTree] at hr
    split_ifs at hr
    · simp only [Option.bind_eq_bind, Option.bind_eq_some_iff] at hr
      obtain ⟨t1, h1, h2⟩ := hr
      refine stored_grow hR maxNodes es ?_ h2
      simp only [growStep, Option.bind_eq_bind, Option.bind_eq_some_iff] at h1
      obtain ⟨_, -, s, -, h1⟩ := h1
      split_ifs at h1
      · simp only [Option.bind_eq_some_iff, Option.some.injEq] at h1
        obtain ⟨r, hr', rfl⟩ := h1
        exact stored_connect h hR hr'
      · simp only [Option.some.injEq] at h1
        exact h1 ▸ h
    · simp only [Option.some.injEq] at hr
      exact hr ▸ h

end

/-- `find_path` returns feasible points of the program of `construct_traj_opt` with its cost. -/
def SolverOk (uLo uUp : Fin 2 → ℝ) (findPath : (Fin 3 → ℝ) → (Fin 3 → ℝ) → Option (Path ℝ)) : Prop :=
  ∀ x1 x2 q, findPath x1 x2 = some q → TrajFeasible 4 uLo uUp 0 0.02 x1 x2 q.x q.u q.dt ∧ q.cost = trajCost q.u

theorem costTrajectory_reverse (u : List (Fin 2 → ℝ)) : (costTrajectory u.reverse).sum = (costTrajectory u).sum := by
  simp [costTrajectory, List.map_reverse, List.sum_reverse]

theorem delta_append (a b : Fin 2 → ℝ) : ∀ u : List (Fin 2 → ℝ), deltaCostTrajectory (u ++ [a, b]) =
    deltaCostTrajectory (u ++ [a]) ++ [200 * (b 0 - a 0) ^ 2 + 800 * (b 1 - a 1) ^ 2]
  | [] => by simp [deltaCostTrajectory]
  | [c] => by simp [deltaCostTrajectory]
  | c :: d :: u => by
    have := delta_append a b (d :: u)
    simp only [deltaCostTrajectory, List.cons_append, List.tail_cons, List.zipWith_cons_cons] at this ⊢
    rw [this]

theorem deltaCost_reverse : ∀ u : List (Fin 2 → ℝ), (deltaCostTrajectory u.reverse).sum = (deltaCostTrajectory u).sum
  | [] => by simp [deltaCostTrajectory]
  | [a] => by simp [deltaCostTrajectory]
  | a :: b :: u => by
    have ih := deltaCost_reverse (b :: u)
    rw [List.reverse_cons] at ih
    rw [List.reverse_cons, List.reverse_cons, List.append_assoc, List.cons_append, List.nil_append, delta_append,
      List.sum_append, ih]
    simp only [deltaCostTrajectory, List.tail_cons, List.zipWith_cons_cons, List.sum_cons, List.sum_nil]
    ring

/-- C93. The cost of the program is the same in both directions, which `connect_state_extend` relies on. -/
theorem C93_cost_symmetric (u : List (Fin 2 → ℝ)) : trajCost u.reverse = trajCost u := by
  rw [trajCost, costTrajectory_reverse, deltaCost_reverse, trajCost]

theorem trajCost_nonneg (u : List (Fin 2 → ℝ)) : 0 ≤ trajCost u := by
  refine add_nonneg (List.sum_nonneg fun c hc => ?_) (List.sum_nonneg fun c hc => ?_)
  · obtain ⟨a, -, rfl⟩ := List.mem_map.1 hc
    positivity
  · unfold deltaCostTrajectory at hc
    obtain ⟨j, hj, rfl⟩ := List.mem_iff_getElem.1 hc
    rw [List.getElem_zipWith]
    positivity

theorem SolverOk.paths {uLo uUp : Fin 2 → ℝ} {findPath : (Fin 3 → ℝ) → (Fin 3 → ℝ) → Option (Path ℝ)}
    (h : SolverOk uLo uUp findPath) : PathsOk findPath := by
  intro x1 x2 q hq
  obtain ⟨h1, h2⟩ := h x1 x2 q hq
  exact ⟨h2 ▸ trajCost_nonneg _, h1.initial, h1.final⟩

/-- C93, the part that holds. In every tree that `grow_tree` makes the path stored with a node is a feasible point of the
program from its state to the state of its parent, or such a point from the parent to the node in reverse order; the cost to the
parent is the cost of its controls. -/
theorem C93_stored_partial {ord : Finset ℕ → List ℕ} (ho : IterOk ord) {uLo uUp : Fin 2 → ℝ}
    {findPath : (Fin 3 → ℝ) → (Fin 3 → ℝ) → Option (Path ℝ)} (hf : SolverOk uLo uUp findPath) (goal : Fin 3 → ℝ) (maxNodes : ℕ)
    (rounds : List (Round ℝ)) {t : RrtStar ℝ} (ht : (init goal).growTree ord findPath maxNodes rounds = some t) (i p : ℕ)
    (hp : t.parent[i]? = some (some p)) :
    ∃ si sp x u dt, t.state[i]? = some si ∧ t.state[p]? = some sp ∧ t.toParent[i]? = some (some (x, u, dt)) ∧
      t.costParent[i]? = some (trajCost u) ∧
      (TrajFeasible 4 uLo uUp 0 0.02 si sp x u dt ∨ TrajFeasible 4 uLo uUp 0 0.02 sp si x.reverse u.reverse dt.reverse) := by
  obtain ⟨t', ht', hg, -⟩ := C92_grow ho hf.paths maxNodes rounds _ (C92_init goal)
  rw [ht] at ht'
  obtain rfl := Option.some.inj ht'
  obtain ⟨-, hst⟩ := stored_grow (R := fun c e => c = trajCost e.2.1 ∧ ∃ a b, TrajFeasible 4 uLo uUp 0 0.02 a b e.1 e.2.1 e.2.2 ∨
    TrajFeasible 4 uLo uUp 0 0.02 a b e.1.reverse e.2.1.reverse e.2.2.reverse) (ord := ord) (findPath := findPath) (by
      intro x s q hq
      obtain ⟨h1, h2⟩ := hf x s q hq
      refine ⟨⟨h2, x, s, Or.inl h1⟩, ?_, x, s, Or.inr ?_⟩
      · rw [h2, ← C93_cost_symmetric]
      · simpa using h1) maxNodes rounds (stored_init _ goal) ht
  obtain ⟨x, u, dt, e1, e2, e3⟩ := hg.path i p hp
  obtain ⟨c, hc, rfl, a, b, hab⟩ := hst i _ e1
  have hx : x ≠ [] := by
    rintro rfl
    rcases hab with h | h
    · simpa using h.initial
    · simpa using h.initial
  refine ⟨x.head hx, x.getLast hx, x, u, dt, ?_, ?_, e1, hc, ?_⟩
  · rw [← e2, List.head?_eq_some_head]
  · rw [← e3, List.getLast?_eq_some_getLast]
  · rcases hab with h | h
    · have h1 := h.initial
      have h2 := h.final
      rw [List.head?_eq_some_head hx] at h1
      rw [List.getLast?_eq_some_getLast hx] at h2
      rw [Option.some.inj h1, Option.some.inj h2]
      exact Or.inl h
    · have h1 := h.initial
      have h2 := h.final
      rw [List.head?_reverse, List.getLast?_eq_some_getLast hx] at h1
      rw [List.getLast?_reverse, List.head?_eq_some_head hx] at h2
      rw [Option.some.inj h1, Option.some.inj h2]
      exact Or.inr h

/-- The dynamics constraints along a path. -/
def AlongDynamics (n : ℕ) (x : List (Fin 3 → ℝ)) (u : List (Fin 2 → ℝ)) (dt : List ℝ) : Prop :=
  ∀ i, i + 1 < n → trajResidual (x.getD i 0) (x.getD (i + 1) 0) (u.getD i 0) (u.getD (i + 1) 0) (dt.getD i 0) = 0

theorem getD_reverse {α : Type} (l : List α) (d : α) {i n : ℕ} (hn : l.length = n) (hi : i < n) :
    l.reverse.getD i d = l.getD (n - 1 - i) d := by
  rw [List.getD_eq_getElem?_getD, List.getD_eq_getElem?_getD, List.getElem?_reverse (by omega), hn]

theorem residual_reverse {n : ℕ} {x : List (Fin 3 → ℝ)} {u : List (Fin 2 → ℝ)} {dt : List ℝ} (hx : x.length = n)
    (hu : u.length = n) (ht : dt.length + 1 = n) {i : ℕ} (hi : i + 1 < n) :
    trajResidual (x.reverse.getD i 0) (x.reverse.getD (i + 1) 0) (u.reverse.getD i 0) (u.reverse.getD (i + 1) 0)
      (dt.reverse.getD i 0) =
    trajResidual (x.getD (n - 2 - i + 1) 0) (x.getD (n - 2 - i) 0) (u.getD (n - 2 - i + 1) 0) (u.getD (n - 2 - i) 0)
      (dt.getD (n - 2 - i) 0) := by
  rw [getD_reverse x 0 hx (by omega), getD_reverse x 0 hx hi, getD_reverse u 0 hu (by omega), getD_reverse u 0 hu hi,
    getD_reverse dt 0 (n := n - 1) (by omega) (by omega)]
  have e1 : n - 1 - i = n - 2 - i + 1 := by omega
  have e2 : n - 1 - (i + 1) = n - 2 - i := by omega
  have e3 : n - 1 - 1 - i = n - 2 - i := by omega
  rw [e1, e2, e3]

/-- C93. The reversed path with the controls of the path, which rewiring stores, obeys the dynamics only if the state never
changes: for a node and a parent in different places it does not. -/
theorem C93_reversed_iff {n : ℕ} {x : List (Fin 3 → ℝ)} {u : List (Fin 2 → ℝ)} {dt : List ℝ} (hx : x.length = n)
    (hu : u.length = n) (ht : dt.length + 1 = n) (h : AlongDynamics n x u dt) :
    AlongDynamics n x.reverse u.reverse dt.reverse ↔ ∀ i, i + 1 < n → x.getD i 0 = x.getD (i + 1) 0 := by
  have key : ∀ j, j + 1 < n → (trajResidual (x.getD (j + 1) 0) (x.getD j 0) (u.getD (j + 1) 0) (u.getD j 0) (dt.getD j 0) = 0 ↔
      x.getD j 0 = x.getD (j + 1) 0) := by
    intro j hj
    have hj' := h j hj
    constructor
    · intro h'
      funext k
      have h1 := congrFun hj' k
      have h2 := congrFun h' k
      simp only [trajResidual, Pi.zero_apply] at h1 h2
      rw [add_comm (unicycleDyn (x.getD j 0) (u.getD j 0) k)] at h2
      linarith
    · intro h'
      funext k
      have h1 := congrFun hj' k
      simp only [trajResidual, Pi.zero_apply] at h1 ⊢
      rw [add_comm (unicycleDyn (x.getD j 0) (u.getD j 0) k)]
      have := congrFun h' k
      linarith
  constructor
  · intro hr j hj
    have := hr (n - 2 - j) (by omega)
    rw [residual_reverse hx hu ht (by omega)] at this
    have e : n - 2 - (n - 2 - j) = j := by omega
    rw [e] at this
    exact (key j hj).1 this
  · intro hc i hi
    rw [residual_reverse hx hu ht hi]
    exact (key _ (by omega)).2 (hc _ (by omega))

/-- C93 is false: the path which rewiring stores for a node away from its new parent does not obey the dynamics. -/
theorem C93_rewired_infeasible {n : ℕ} {uLo uUp : Fin 2 → ℝ} {d1 d2 : ℝ} {x0 xT : Fin 3 → ℝ} {x : List (Fin 3 → ℝ)}
    {u : List (Fin 2 → ℝ)} {dt : List ℝ} (h : TrajFeasible n uLo uUp d1 d2 x0 xT x u dt) (hne : x0 ≠ xT) :
    ¬ AlongDynamics n x.reverse u.reverse dt.reverse := by
  rw [C93_reversed_iff h.lenX h.lenU h.lenDt h.dynamics]
  intro hc
  have hall : ∀ i, i < n → x.getD i 0 = x.getD 0 0 := by
    intro i
    induction i with
    | zero => exact fun _ => rfl
    | succ i ih => exact fun hi => (hc i hi).symm.trans (ih (by omega))
  have hx : x ≠ [] := by
    rintro rfl
    simpa using h.initial
  have hpos : 0 < x.length := List.length_pos_of_ne_nil hx
  apply hne
  have h1 := h.initial
  have h2 := h.final
  rw [List.head?_eq_getElem?] at h1
  rw [List.getLast?_eq_getElem?] at h2
  have h3 := hall (x.length - 1) (by rw [← h.lenX]; omega)
  rw [List.getD_eq_getElem?_getD, List.getD_eq_getElem?_getD, h1, h2] at h3
  exact h3.symm

/-- C93. With the signs of the controls changed the reversed path would obey the dynamics. -/
theorem C93_negated {n : ℕ} {x : List (Fin 3 → ℝ)} {u : List (Fin 2 → ℝ)} {dt : List ℝ} (hx : x.length = n)
    (hu : u.length = n) (ht : dt.length + 1 = n) (h : AlongDynamics n x u dt) :
    AlongDynamics n x.reverse (u.reverse.map fun c => -c) dt.reverse := by
  have hneg : ∀ (y : Fin 3 → ℝ) (v : Fin 2 → ℝ) k, unicycleDyn y (-v) k = - unicycleDyn y v k := by
    intro y v k
    fin_cases k <;> simp [unicycleDyn]
  have hg : ∀ j, (u.map fun c => -c).getD j 0 = - u.getD j 0 := by
    intro j
    rw [List.getD_eq_getElem?_getD, List.getD_eq_getElem?_getD, List.getElem?_map]
    cases u[j]? <;> simp
  intro i hi
  rw [List.map_reverse, residual_reverse hx (by simpa using hu) ht hi]
  have h1 := h (n - 2 - i) (by omega)
  funext k
  have h2 := congrFun h1 k
  simp only [trajResidual, Pi.zero_apply, hg, hneg] at h2 ⊢
  linarith

/-! ## Two rounds of `grow_tree` that store a path against the dynamics -/

namespace StraightSolver

/-- Straight lines along the first axis at constant speed, within the limits of the car. -/
noncomputable def straight (x1 x2 : Fin 3 → ℝ) : Option (Path ℝ) :=
  if x1 1 = 0 ∧ x2 1 = 0 ∧ x1 2 = 0 ∧ x2 2 = 0 ∧ -3 ≤ (x2 0 - x1 0) / 0.06 ∧ (x2 0 - x1 0) / 0.06 ≤ 6 then
    some ⟨4 * ((x2 0 - x1 0) / 0.06) ^ 2,
      [x1, ![(2 * x1 0 + x2 0) / 3, 0, 0], ![(x1 0 + 2 * x2 0) / 3, 0, 0], x2],
      List.replicate 4 ![(x2 0 - x1 0) / 0.06, 0], [0.02, 0.02, 0.02]⟩
  else none

theorem straight_ok : SolverOk ![-3, -0.7] ![6, 0.7] straight := by
  intro x1 x2 q hq
  unfold straight at hq
  split_ifs at hq with h
  obtain ⟨h1, h2, h3, h4, h5, h6⟩ := h
  obtain rfl := Option.some.inj hq
  refine ⟨⟨rfl, rfl, rfl, ?_, ?_, ?_, rfl, rfl⟩, ?_⟩
  · intro d hd
    simp at hd
    subst hd
    norm_num
  · intro i hi
    have : i = 0 ∨ i = 1 ∨ i = 2 := by omega
    funext k
    rcases this with rfl | rfl | rfl <;> fin_cases k <;>
      simp [trajResidual, unicycleDyn, h1, h2, h3, h4] <;> ring
  · intro c hc
    rw [List.mem_replicate] at hc
    rw [hc.2]
    exact ⟨⟨h5, h6⟩, by norm_num⟩
  · simp [trajCost, costTrajectory, deltaCostTrajectory]
    ring

/-- The goal, and rounds that extend to two points on the axis. -/
noncomputable def rounds : List (Round ℝ) := [⟨0, fun _ => ![-0.12, 0, 0]⟩, ⟨0, fun _ => ![-0.06, 0, 0]⟩]

theorem val2 (a b c : ℝ) : ![a, b, c] 2 = c := rfl

theorem path_a : straight ![-0.12, 0, 0] ![0, 0, 0] = some ⟨16, [![-0.12, 0, 0], ![-0.08, 0, 0], ![-0.04, 0, 0], ![0, 0, 0]],
    List.replicate 4 ![2, 0], [0.02, 0.02, 0.02]⟩ := by
  norm_num [straight, val2]

theorem path_b : straight ![-0.06, 0, 0] ![0, 0, 0] = some ⟨4, [![-0.06, 0, 0], ![-0.04, 0, 0], ![-0.02, 0, 0], ![0, 0, 0]],
    List.replicate 4 ![1, 0], [0.02, 0.02, 0.02]⟩ := by
  norm_num [straight, val2]

theorem path_c : straight ![-0.06, 0, 0] ![-0.12, 0, 0] = some ⟨4, [![-0.06, 0, 0], ![-0.08, 0, 0], ![-0.1, 0, 0], ![-0.12, 0, 0]],
    List.replicate 4 ![-1, 0], [0.02, 0.02, 0.02]⟩ := by
  norm_num [straight, val2]

/-- The tree after the first round. -/
noncomputable def tree1 : RrtStar ℝ :=
  ⟨[![0, 0, 0], ![-0.12, 0, 0]], [none, some 0], [{1}, ∅], [0, 16], [0, 16], [none, some ([![-0.12, 0, 0],
    ![-0.08, 0, 0], ![-0.04, 0, 0], ![0, 0, 0]], List.replicate 4 ![2, 0], [0.02, 0.02, 0.02])]⟩

theorem step_one : (init ![0, 0, 0]).growStep exOrd straight ⟨0, fun _ => ![-0.12, 0, 0]⟩ = some tree1 := by
  have hn : (init ![(0 : ℝ), 0, 0]).nearestNode 0 = some 0 := by simp [nearestNode, init, argmin]
  have hb : (init ![(0 : ℝ), 0, 0]).neighbours ![-0.12, 0, 0] (1 / 5) = [0] := by
    have : (List.range (init ![(0 : ℝ), 0, 0]).state.length).zip (init ![(0 : ℝ), 0, 0]).state = [(0, ![0, 0, 0])] := rfl
    rw [neighbours, this]
    norm_num [stateDistance, val2, List.filterMap_cons]
  have hp : List.mapM (fun i => Option.map (fun s => straight ![-0.12, 0, 0] s) (init ![(0 : ℝ), 0, 0]).state[i]?) [0] =
      some [straight ![-0.12, 0, 0] ![0, 0, 0]] := by simp [init]
  have hc : (init ![0, 0, 0]).connect exOrd straight ![-0.12, 0, 0] [0] = some (tree1, some 1) := by
    rw [RrtStar.connect, hp, path_a]
    have : ¬ (16 : ℝ) < 0 := by norm_num
    simp [init, argmin, pathCost, addNode, rewire, tree1, this]
  have hst : (init ![(0 : ℝ), 0, 0]).state[0]? = some ![0, 0, 0] := rfl
  simp only [growStep, hn, hst, hb, hc, Option.bind_eq_bind, Option.bind_some]
  rfl

/-- C93 is false in a tree that `grow_tree` makes, with an admissible solver: node 1 is rewired to node 2. -/
theorem C93_false : ∃ t x u dt, (init ![0, 0, 0]).growTree exOrd straight 3 rounds = some t ∧
    t.parent[1]? = some (some 2) ∧ t.toParent[1]? = some (some (x, u, dt)) ∧ ¬ AlongDynamics 4 x u dt := by
  have hn : tree1.nearestNode 0 = some 0 := by
    norm_num [nearestNode, tree1, argmin, stateDistance, val2]
  have hb : tree1.neighbours ![-0.06, 0, 0] (1 / 5) = [0, 1] := by
    have : (List.range tree1.state.length).zip tree1.state = [(0, ![0, 0, 0]), (1, ![-0.12, 0, 0])] := rfl
    rw [neighbours, this]
    norm_num [stateDistance, val2, List.filterMap_cons]
  have hp : List.mapM (fun i => Option.map (fun s => straight ![-0.06, 0, 0] s) tree1.state[i]?) [0, 1] =
      some [straight ![-0.06, 0, 0] ![0, 0, 0], straight ![-0.06, 0, 0] ![-0.12, 0, 0]] := by simp [tree1]
  have ha : argmin [((4 : ℝ) : WithTop ℝ) + ((0 : ℝ) : WithTop ℝ), ((4 : ℝ) : WithTop ℝ) + ((16 : ℝ) : WithTop ℝ)] = some 0 := by
    have : ((4 : ℝ) : WithTop ℝ) + ((0 : ℝ) : WithTop ℝ) ≤ ((4 : ℝ) : WithTop ℝ) + ((16 : ℝ) : WithTop ℝ) := by
      rw [← WithTop.coe_add, ← WithTop.coe_add, WithTop.coe_le_coe]
      norm_num
    simp only [argmin, List.all_cons, this, List.all_nil]
    rfl
  have he : exOrd ∅ = [] := by decide
  let tn : RrtStar ℝ := ⟨[![0, 0, 0], ![-0.12, 0, 0], ![-0.06, 0, 0]], [none, some 0, some 0], [{2, 1}, ∅, ∅], [0, 16, 4],
    [0, 16, 4], [none, some ([![-0.12, 0, 0], ![-0.08, 0, 0], ![-0.04, 0, 0], ![0, 0, 0]], List.replicate 4 ![2, 0],
      [0.02, 0.02, 0.02]), some ([![-0.06, 0, 0], ![-0.04, 0, 0], ![-0.02, 0, 0], ![0, 0, 0]], List.replicate 4 ![1, 0],
      [0.02, 0.02, 0.02])]⟩
  let p1 : Path ℝ := ⟨4, [![-0.06, 0, 0], ![-0.04, 0, 0], ![-0.02, 0, 0], ![0, 0, 0]], List.replicate 4 ![1, 0],
    [0.02, 0.02, 0.02]⟩
  let p2 : Path ℝ := ⟨4, [![-0.06, 0, 0], ![-0.08, 0, 0], ![-0.1, 0, 0], ![-0.12, 0, 0]], List.replicate 4 ![-1, 0],
    [0.02, 0.02, 0.02]⟩
  have hadd : tree1.addNode ![-0.06, 0, 0] 0 4 (p1.x, p1.u, p1.dt) = some (tn, 2) := by
    simp [addNode, tree1, tn, p1]
  have hr1 : rewire exOrd 2 4 tn (0, some p1) = some tn := by
    norm_num [rewire, tn, p1]
  obtain ⟨t, hr2, h2, h3⟩ : ∃ t, rewire exOrd 2 4 tn (1, some p2) = some t ∧ t.parent[1]? = some (some 2) ∧
      t.toParent[1]? = some (some (p2.x.reverse, p2.u.reverse, p2.dt.reverse)) := by
    have : (4 : ℝ) + 4 < 16 := by norm_num
    simp [rewire, tn, p2, this, updateParent, descend, visit, he]
  have hc : tree1.connect exOrd straight ![-0.06, 0, 0] [0, 1] = some (t, some 2) := by
    rw [RrtStar.connect, hp, path_b, path_c]
    have hroots : List.mapM (fun i => tree1.costRoot[i]?) [0, 1] = some [0, 16] := by simp [tree1]
    have hroot : tree1.costRoot[0]? = some 0 := rfl
    have hadd' := hadd
    simp only [p1] at hadd'
    simp only [Option.bind_eq_bind, Option.bind_some, hroots, pathCost, Option.elim, List.zipWith, ha, List.getElem?_cons_zero,
      hroot, hadd', List.zip_cons_cons, List.zip_nil_right, List.foldlM_cons, List.foldlM_nil, add_zero, List.any_cons,
      Option.isSome_some, Bool.true_or, if_true]
    have := hr1
    simp only [p1] at this
    rw [this]
    have := hr2
    simp only [p2] at this
    simp only [Option.bind_some, this, Option.pure_def]
  refine ⟨t, _, _, _, ?_, h2, h3, ?_⟩
  · have h1 : tree1.growStep exOrd straight ⟨0, fun _ => ![-0.06, 0, 0]⟩ = some t := by
      simp only [growStep, hn, Option.bind_eq_bind, Option.bind_some]
      have hst : tree1.state[0]? = some ![0, 0, 0] := rfl
      rw [hst]
      simp only [Option.bind_some, hb, hc]
      rfl
    have l0 : (init ![(0 : ℝ), 0, 0]).state.length = 1 := rfl
    have l1 : tree1.state.length = 2 := rfl
    simp only [rounds, growTree, l0, step_one, Option.bind_eq_bind, Option.bind_some, l1, h1]
    simp
  · refine C93_rewired_infeasible (straight_ok _ _ p2 path_c).1 ?_
    intro h
    have := congrFun h 0
    norm_num at this

end StraightSolver

/-- C93. If the limits of the controls are symmetric, the reversed path with the signs of the controls changed is a feasible point
of the program from the parent to the node. -/
theorem C93_repair {n : ℕ} {uLo uUp : Fin 2 → ℝ} (hsym : uLo = -uUp) {d1 d2 : ℝ} {x0 xT : Fin 3 → ℝ}
    {x : List (Fin 3 → ℝ)} {u : List (Fin 2 → ℝ)} {dt : List ℝ} (h : TrajFeasible n uLo uUp d1 d2 x0 xT x u dt) :
    TrajFeasible n uLo uUp d1 d2 xT x0 x.reverse (u.reverse.map fun c => -c) dt.reverse := by
  refine ⟨by simpa using h.lenX, by simpa using h.lenU, by simpa using h.lenDt, fun d hd => h.steps d (by simpa using hd),
    C93_negated h.lenX h.lenU h.lenDt h.dynamics, fun c hc => ?_, ?_, ?_⟩
  · simp only [List.map_reverse, List.mem_reverse, List.mem_map] at hc
    obtain ⟨c', hc', rfl⟩ := hc
    obtain ⟨⟨h1, h2⟩, h3, h4⟩ := h.control c' hc'
    subst hsym
    simp only [Pi.neg_apply] at h1 h3 ⊢
    exact ⟨⟨by linarith, by linarith⟩, by linarith, by linarith⟩
  · rw [List.head?_reverse, h.final]
  · rw [List.getLast?_reverse, h.initial]

end NNL.Props
