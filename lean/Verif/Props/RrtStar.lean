import Verif.Lemmas.RrtStar
import Mathlib.Data.Finset.Sort
import Mathlib.Data.Fin.VecNotation
import Mathlib.Tactic.Ring

/-!
# C92: the tree of `RrtStar` stays consistent
-/

namespace NNL.Props

open NNL.Model NNL.Spec NNL.Model.RrtStar

variable {K : Type} [Field K] [LinearOrder K]

theorem argmin_spec {α : Type} [LinearOrder α] : ∀ (l : List α), l ≠ [] → ∃ (i : ℕ) (h : i < l.length), argmin l = some i ∧
    (∀ a ∈ l, l[i] ≤ a) ∧ ∀ j (hj : j < i), l[i] < l[j]
  | [], h => absurd rfl h
  | [a], _ => ⟨0, by simp, by simp [argmin], by simp, by simp⟩
  | a :: b :: l, _ => by
    obtain ⟨i, hi, h1, h2, h3⟩ := argmin_spec (b :: l) (by simp)
    by_cases hall : (b :: l).all (a ≤ ·) = true
    · refine ⟨0, by simp, ?_, ?_, by simp⟩
      · rw [argmin, h1]
        simp only [hall, if_true]
      · intro c hc
        rcases List.mem_cons.1 hc with rfl | hc
        · simp
        · simpa using List.all_eq_true.1 hall c hc
    · have hlt : (b :: l)[i] < a := by
        simp only [List.all_eq_true, decide_eq_true_eq, not_forall, not_le] at hall
        obtain ⟨c, hc, hlt⟩ := hall
        exact (h2 c hc).trans_lt hlt
      refine ⟨i + 1, by simpa using hi, ?_, ?_, ?_⟩
      · rw [argmin, h1]
        simp only [hall, if_false, Bool.false_eq_true]
      · intro c hc
        rcases List.mem_cons.1 hc with rfl | hc
        · simpa using hlt.le
        · simpa using h2 c hc
      · intro j hj
        rcases j with _ | j
        · simpa using hlt
        · simpa using h3 j (by omega)

theorem mapM_of_some {α β : Type} {f : α → Option β} {g : α → β} : ∀ {l : List α}, (∀ a ∈ l, f a = some (g a)) →
    l.mapM f = some (l.map g)
  | [], _ => rfl
  | a :: l, h => by
    rw [List.mapM_cons, h a (by simp), mapM_of_some fun b hb => h b (by simp [hb])]
    rfl

theorem Inv.rc_nonneg [IsStrictOrderedRing K] {t : RrtStar K} (h : t.Inv) {i : ℕ} (hi : i < t.state.length) : 0 ≤ t.rc i := by
  obtain ⟨l, -, hl⟩ := route_exists h hi
  rw [hl]
  apply List.sum_nonneg
  intro c hc
  obtain ⟨j, -, rfl⟩ := List.mem_map.1 hc
  exact h.nonneg j

/-- One round of the rewiring loop. -/
theorem rewire_spec [IsStrictOrderedRing K] {ord : Finset ℕ → List ℕ} (ho : IterOk ord) {t : RrtStar K} (h : t.Inv)
    {n i p : ℕ} {q : Option (Path K)} (hn : n < t.state.length) (hi : i < t.state.length) (hin : i ≠ n) (hp : t.Up n p)
    (hq : ∀ q' ∈ q, 0 ≤ q'.cost ∧ q'.x.head? = t.state[n]? ∧ q'.x.getLast? = t.state[i]?) :
    ∃ t', rewire ord n (t.rc n) t (i, q) = some t' ∧ t'.Inv ∧ t'.state = t.state ∧ t'.rc n = t.rc n ∧ t'.Up n p ∧
      (∀ j < t.state.length, t'.rc j ≤ t.rc j) ∧ ∀ q' ∈ q, t'.rc i ≤ q'.cost + t.rc n := by
  have hr := h.shape.rc_get hi
  cases q with
  | none =>
    refine ⟨t, ?_, h, rfl, rfl, hp, fun j _ => le_rfl, by simp⟩
    simp [rewire, hr]
  | some q =>
    obtain ⟨h0, h1, h2⟩ := hq q rfl
    by_cases hlt : q.cost + t.rc n < t.rc i
    · have hnr : ¬ t.Reach n i := by
        intro hreach
        have := h.reach_le hreach
        linarith
      have hi0 : 0 < i := by
        rcases Nat.eq_zero_or_pos i with rfl | h'
        · rw [h.root] at hlt
          have := Inv.rc_nonneg h hn
          linarith
        · exact h'
      obtain ⟨t', e, hinv, hst, hup, hcp, -⟩ := updateParent_spec ho h hi0 hi hn hnr h0
        (path := (q.x.reverse, q.u.reverse, q.dt.reverse)) (by simpa using h2) (by simpa using h1)
      have hn' := rewired_same h hinv hup hcp hn hnr
      refine ⟨t', ?_, hinv, hst, hn', (hup n p).2 (Or.inr ⟨hin.symm, hp⟩), fun j hj =>
        rewired_le h hinv hn hup hcp hnr (by linarith) hj, ?_⟩
      · simp only [rewire, hr, Option.bind_eq_bind, Option.bind_some, hlt, if_true]
        exact e
      · rintro q' ⟨⟩
        rw [hinv.cost i n ((hup i n).2 (Or.inl ⟨rfl, rfl⟩)), hcp, if_pos rfl, hn', add_comm]
    · refine ⟨t, ?_, h, rfl, rfl, hp, fun j _ => le_rfl, ?_⟩
      · simp [rewire, hr, hlt]
      · rintro q' ⟨⟩
        exact not_lt.1 hlt

/-- The rewiring loop. -/
theorem rewires_spec [IsStrictOrderedRing K] {ord : Finset ℕ → List ℕ} (ho : IterOk ord) {n p : ℕ} {c : K} :
    ∀ (es : List (ℕ × Option (Path K))) (t : RrtStar K), t.Inv → n < t.state.length → t.Up n p → t.rc n = c →
    (∀ e ∈ es, e.1 < t.state.length ∧ e.1 ≠ n ∧
      ∀ q ∈ e.2, 0 ≤ q.cost ∧ q.x.head? = t.state[n]? ∧ q.x.getLast? = t.state[e.1]?) →
    ∃ t', es.foldlM (rewire ord n c) t = some t' ∧ t'.Inv ∧ t'.state = t.state ∧ t'.rc n = c ∧ t'.Up n p ∧
      (∀ j < t.state.length, t'.rc j ≤ t.rc j) ∧ ∀ e ∈ es, ∀ q ∈ e.2, t'.rc e.1 ≤ q.cost + c
  | [], t, h, _, hp, hc, _ => ⟨t, rfl, h, rfl, hc, hp, fun _ _ => le_rfl, by simp⟩
  | e :: es, t, h, hn, hp, hc, hes => by
    obtain ⟨h1, h2, h3⟩ := hes e (by simp)
    obtain ⟨t1, e1, i1, s1, r1, u1, l1, q1⟩ := rewire_spec ho h hn h1 h2 hp h3
    obtain ⟨t2, e2, i2, s2, r2, u2, l2, q2⟩ := rewires_spec ho es t1 i1 (s1 ▸ hn) u1 (r1.trans hc)
      (by
        intro e' he'
        rw [s1]
        exact hes e' (by simp [he']))
    refine ⟨t2, ?_, i2, s2.trans s1, r2, u2, fun j hj => (l2 j (s1 ▸ hj)).trans (l1 j hj), ?_⟩
    · rw [List.foldlM_cons, ← hc, e1]
      rw [← hc] at e2
      exact e2
    · intro e' he' q hq
      rcases List.mem_cons.1 he' with rfl | he'
      · refine (l2 _ (s1 ▸ h1)).trans ?_
        rw [← hc]
        exact q1 q hq
      · exact q2 e' he' q hq

/-- C92. `connect_state_extend` never fails and keeps the tree consistent. It adds no node exactly when no path to a neighbour
is found. Otherwise the new node has the smallest cost that a connection to a neighbour gives, it is connected to such a neighbour,
no node gets more expensive, and no neighbour could be improved by a connection to the new node. -/
theorem C92_connect [IsStrictOrderedRing K] {ord : Finset ℕ → List ℕ}
    {findPath : (Fin 3 → K) → (Fin 3 → K) → Option (Path K)} (ho : IterOk ord) (hf : PathsOk findPath) {t : RrtStar K}
    (ht : GoodTree t) (x : Fin 3 → K) (nb : List ℕ) (hnb : ∀ i ∈ nb, i < t.state.length) :
    ∃ t' r, t.connect ord findPath x nb = some (t', r) ∧ GoodTree t' ∧
      (r = none → t' = t ∧ ∀ i ∈ nb, ∀ s, t.state[i]? = some s → findPath x s = none) ∧
      ∀ n, r = some n → n = t.state.length ∧ t'.state = t.state ++ [x] ∧
        (∀ (i : ℕ) (a : K), t.costRoot[i]? = some a → ∃ a', t'.costRoot[i]? = some a' ∧ a' ≤ a) ∧
        ∃ c, t'.costRoot[n]? = some c ∧
          (∃ i ∈ nb, t'.parent[n]? = some (some i) ∧ ∃ s q a, t.state[i]? = some s ∧ findPath x s = some q ∧
            t.costRoot[i]? = some a ∧ c = q.cost + a) ∧
          ∀ i ∈ nb, ∀ s q a, t.state[i]? = some s → findPath x s = some q → t.costRoot[i]? = some a →
            c ≤ q.cost + a ∧ ∃ a', t'.costRoot[i]? = some a' ∧ a' ≤ q.cost + c := by
  have h := Inv.of_good ht
  have hs := h.shape
  have hst : ∀ i ∈ nb, t.state[i]? = some (t.state.getD i 0) := by
    intro i hi
    simp [List.getD_eq_getElem?_getD, hnb i hi]
  have hpaths : (nb.mapM fun i => (t.state[i]?).map fun s => findPath x s) =
      some (nb.map fun i => findPath x (t.state.getD i 0)) :=
    mapM_of_some fun i hi => by rw [hst i hi]; rfl
  have hroots : (nb.mapM fun i => t.costRoot[i]?) = some (nb.map t.rc) := mapM_of_some fun i hi => hs.rc_get (hnb i hi)
  by_cases hany : (nb.map fun i => findPath x (t.state.getD i 0)).any (·.isSome) = true
  swap
  · refine ⟨t, none, ?_, ht, fun _ => ⟨rfl, ?_⟩, by simp⟩
    · simp only [RrtStar.connect, hpaths, Option.bind_eq_bind, Option.bind_some]
      rw [if_neg hany]
    · intro i hi s hsi
      rw [hst i hi] at hsi
      rw [← Option.some.inj hsi]
      by_contra hne
      apply hany
      rw [List.any_eq_true]
      exact ⟨_, List.mem_map.2 ⟨i, hi, rfl⟩, Option.isSome_iff_ne_none.2 hne⟩
  · obtain ⟨z, hz⟩ : ∃ z, z = List.zipWith (fun p (r : K) => pathCost p + (r : WithTop K))
      (nb.map fun i => findPath x (t.state.getD i 0)) (nb.map t.rc) := ⟨_, rfl⟩
    have hz' : z = nb.map fun i => pathCost (findPath x (t.state.getD i 0)) + (t.rc i : WithTop K) := by
      rw [hz, List.zipWith_map_left, List.zipWith_map_right, List.zipWith_self]
    obtain ⟨o, ho1, ho2⟩ := List.any_eq_true.1 hany
    obtain ⟨k, hk, rfl⟩ := List.mem_map.1 ho1
    obtain ⟨qk, hqk⟩ := Option.isSome_iff_exists.1 ho2
    obtain ⟨b, hb, hb1, hb2, -⟩ := argmin_spec z (by
      rw [hz']
      intro e
      rw [List.map_eq_nil_iff] at e
      simp [e] at hk)
    have hbn : b < nb.length := by simpa [hz'] using hb
    have hpn : nb[b] ∈ nb := List.getElem_mem hbn
    have hzb : z[b] = pathCost (findPath x (t.state.getD nb[b] 0)) + (t.rc nb[b] : WithTop K) := by simp [hz']
    have hmin : ∀ i ∈ nb, ∀ q, findPath x (t.state.getD i 0) = some q → z[b] ≤ ((q.cost + t.rc i : K) : WithTop K) := by
      intro i hi q hq
      have := hb2 (pathCost (findPath x (t.state.getD i 0)) + (t.rc i : WithTop K))
        (by rw [hz']; exact List.mem_map.2 ⟨i, hi, rfl⟩)
      rw [hq] at this
      simpa [pathCost] using this
    obtain ⟨q, hq⟩ : ∃ q, findPath x (t.state.getD nb[b] 0) = some q := by
      rcases hqb : findPath x (t.state.getD nb[b] 0) with _ | q
      · have := hmin k hk qk hqk
        rw [hzb, hqb] at this
        simp [pathCost] at this
      · exact ⟨q, rfl⟩
    have hzb' : z[b] = ((q.cost + t.rc nb[b] : K) : WithTop K) := by
      rw [hzb, hq]
      simp [pathCost]
    obtain ⟨hq0, hq1, hq2⟩ := hf _ _ _ hq
    obtain ⟨t1, ha, i1, s1, r1, r1', u1, -⟩ := addNode_spec h (hnb _ hpn) hq0 (path := (q.x, q.u, q.dt)) hq1
      (by rw [hst _ hpn]; exact hq2)
    have hl1 : t.state.length < t1.state.length := by simp [s1]
    have hgl : ∀ i ∈ nb, t1.state[i]? = some (t.state.getD i 0) := by
      intro i hi
      rw [s1, List.getElem?_append_left (hnb i hi), hst i hi]
    obtain ⟨t2, e2, i2, s2, r2, u2, l2, q2⟩ := rewires_spec ho (n := t.state.length) (p := nb[b])
      (c := q.cost + t.rc nb[b]) (nb.zip (nb.map fun i => findPath x (t.state.getD i 0))) t1 i1 hl1 u1 r1
      (by
        rintro ⟨i, q'⟩ he
        rw [List.zip_map_right, List.mem_map] at he
        obtain ⟨⟨i1, i2⟩, he, e⟩ := he
        rw [List.zip_eq_zipWith, List.zipWith_self, List.mem_map] at he
        obtain ⟨i0, hi0, e0⟩ := he
        simp only [Prod.mk.injEq] at e0
        obtain ⟨rfl, rfl⟩ := e0
        simp only [Prod.map_apply, id, Prod.mk.injEq] at e
        obtain ⟨rfl, rfl⟩ := e
        have hil := hnb _ hi0
        refine ⟨hil.trans hl1, hil.ne, fun q' hq' => ?_⟩
        obtain ⟨g0, g1, g2⟩ := hf _ _ _ hq'
        refine ⟨g0, ?_, ?_⟩
        · rw [g1, s1]
          simp
        · rw [g2, hgl _ hi0])
    refine ⟨t2, some t.state.length, ?_, i2.good, by simp, ?_⟩
    · simp only [RrtStar.connect, hpaths, hroots, Option.bind_eq_bind, Option.bind_some, hany, if_true]
      rw [← hz, hb1]
      simp only [Option.bind_some, List.getElem?_eq_getElem hbn, hs.rc_get (hnb _ hpn)]
      have : (nb.map fun i => findPath x (t.state.getD i 0))[b]? = some (some q) := by
        rw [List.getElem?_map, List.getElem?_eq_getElem hbn, Option.map_some, hq]
      rw [this]
      simp only [Option.bind_some]
      rw [ha]
      simp only [Option.bind_some]
      rw [e2]
      rfl
    · rintro n ⟨⟩
      have hrc2 : ∀ j < t.state.length, t2.costRoot[j]? = some (t2.rc j) := fun j hj =>
        i2.shape.rc_get (by rw [s2]; exact hj.trans hl1)
      refine ⟨rfl, by rw [s2, s1], ?_, q.cost + t.rc nb[b], ?_, ⟨nb[b], hpn, u2, _, q, _, hst _ hpn, hq,
        hs.rc_get (hnb _ hpn), rfl⟩, ?_⟩
      · intro i a hia
        have hil : i < t.state.length := by
          rw [← hs.len_costRoot]
          exact (List.getElem?_eq_some_iff.1 hia).1
        rw [hs.rc_get hil] at hia
        obtain rfl := Option.some.inj hia
        exact ⟨_, hrc2 i hil, (l2 i (hil.trans hl1)).trans (r1' i hil).le⟩
      · rw [i2.shape.rc_get (by rw [s2]; exact hl1), r2]
      · intro i hi s q' a hsi hq' hai
        rw [hst i hi] at hsi
        obtain rfl := Option.some.inj hsi
        rw [hs.rc_get (hnb i hi)] at hai
        obtain rfl := Option.some.inj hai
        refine ⟨?_, _, hrc2 i (hnb i hi), ?_⟩
        · have := hmin i hi q' hq'
          rw [hzb'] at this
          exact WithTop.coe_le_coe.1 this
        · refine q2 (i, findPath x (t.state.getD i 0)) ?_ q' hq'
          rw [List.zip_map_right, List.mem_map]
          refine ⟨(i, i), ?_, rfl⟩
          rw [List.zip_eq_zipWith, List.zipWith_self, List.mem_map]
          exact ⟨i, hi, rfl⟩

/-- C92. `neighbours` are the nodes whose squared weighted distance is at most the radius. -/
theorem C92_neighbours (t : RrtStar K) (x : Fin 3 → K) (radius : K) (i : ℕ) :
    i ∈ t.neighbours x radius ↔ ∃ s, t.state[i]? = some s ∧
      (s 0 - x 0) ^ 2 + (s 1 - x 1) ^ 2 + (s 2 - x 2) ^ 2 / 2 ≤ radius := by
  have hd : ∀ s : Fin 3 → K, stateDistance s x = (s 0 - x 0) ^ 2 + (s 1 - x 1) ^ 2 + (s 2 - x 2) ^ 2 / 2 := by
    intro s
    unfold stateDistance
    ring
  simp only [neighbours, List.mem_filterMap, Option.ite_none_right_eq_some, Option.some.injEq, hd]
  constructor
  · rintro ⟨⟨j, s⟩, hm, hle, rfl⟩
    obtain ⟨k, hk, e⟩ := List.getElem_of_mem hm
    simp only [List.getElem_zip, List.getElem_range, Prod.mk.injEq] at e
    obtain ⟨rfl, rfl⟩ := e
    exact ⟨_, List.getElem?_eq_getElem _, hle⟩
  · rintro ⟨s, hs, hle⟩
    obtain ⟨hi, rfl⟩ := List.getElem?_eq_some_iff.1 hs
    refine ⟨(i, t.state[i]), List.mem_iff_getElem.2 ⟨i, by simpa using hi, by simp⟩, hle, rfl⟩

/-- C92. `nearest_node` returns the first node with the smallest distance. -/
theorem C92_nearest (t : RrtStar K) (ht : GoodTree t) (x : Fin 3 → K) :
    ∃ i s, t.nearestNode x = some i ∧ t.state[i]? = some s ∧ (∀ s' ∈ t.state, stateDistance s x ≤ stateDistance s' x) ∧
      ∀ j < i, ∀ s', t.state[j]? = some s' → stateDistance s x < stateDistance s' x := by
  obtain ⟨i, hi, h1, h2, h3⟩ := argmin_spec (t.state.map fun s => stateDistance s x) (by
    intro e
    have := ht.pos
    rw [List.map_eq_nil_iff] at e
    simp [e] at this)
  have hi' : i < t.state.length := by simpa using hi
  refine ⟨i, t.state[i], h1, List.getElem?_eq_getElem hi', ?_, ?_⟩
  · intro s' hs'
    have := h2 _ (List.mem_map.2 ⟨s', hs', rfl⟩)
    simpa using this
  · intro j hj s' hs'
    obtain ⟨hj', rfl⟩ := List.getElem?_eq_some_iff.1 hs'
    simpa using h3 j hj

/-- C92. `grow_tree` never fails: after any number of rounds, for all samples and simulations, the tree is consistent, contains
the old nodes, none of which has become more expensive, and has at most the wanted number of nodes. -/
theorem C92_grow [IsStrictOrderedRing K] {ord : Finset ℕ → List ℕ}
    {findPath : (Fin 3 → K) → (Fin 3 → K) → Option (Path K)} (ho : IterOk ord) (hf : PathsOk findPath) (maxNodes : ℕ) :
    ∀ (rounds : List (Round K)) (t : RrtStar K), GoodTree t →
    ∃ t', t.growTree ord findPath maxNodes rounds = some t' ∧ GoodTree t' ∧ t.state <+: t'.state ∧
      t'.state.length ≤ max maxNodes t.state.length ∧
      ∀ (i : ℕ) (a : K), t.costRoot[i]? = some a → ∃ a', t'.costRoot[i]? = some a' ∧ a' ≤ a
  | [], t, ht => ⟨t, rfl, ht, List.prefix_rfl, le_max_right _ _, fun i a h => ⟨a, h, le_rfl⟩⟩
  | e :: es, t, ht => by
    by_cases hlt : t.state.length < maxNodes
    swap
    · exact ⟨t, by simp [RrtStar.growTree, hlt], ht, List.prefix_rfl, le_max_right _ _, fun i a h => ⟨a, h, le_rfl⟩⟩
    obtain ⟨i, s, hn, hsi, -⟩ := C92_nearest t ht e.sample
    have step : ∃ t1, t.growStep ord findPath e = some t1 ∧ GoodTree t1 ∧ t.state <+: t1.state ∧
        t1.state.length ≤ t.state.length + 1 ∧ ∀ (i : ℕ) (a : K), t.costRoot[i]? = some a → ∃ a', t1.costRoot[i]? = some a' ∧ a' ≤ a := by
      by_cases hnb : 0 < (t.neighbours (e.extend s) (1 / 5)).length
      · obtain ⟨t1, r, hc, hg, h1, h2⟩ := C92_connect ho hf ht (e.extend s) (t.neighbours (e.extend s) (1 / 5)) (by
          intro j hj
          obtain ⟨s', hs', -⟩ := (C92_neighbours t _ _ j).1 hj
          exact (List.getElem?_eq_some_iff.1 hs').1)
        refine ⟨t1, ?_, hg, ?_⟩
        · simp only [growStep, hn, hsi, Option.bind_eq_bind, Option.bind_some, hnb, if_true, hc]
        · cases r with
          | none =>
            obtain ⟨rfl, -⟩ := h1 rfl
            exact ⟨List.prefix_rfl, by omega, fun i a h => ⟨a, h, le_rfl⟩⟩
          | some n =>
            obtain ⟨-, hst, hle, -⟩ := h2 n rfl
            exact ⟨hst ▸ List.prefix_append _ _, by simp [hst], hle⟩
      · refine ⟨t, ?_, ht, List.prefix_rfl, by omega, fun i a h => ⟨a, h, le_rfl⟩⟩
        simp only [growStep, hn, hsi, Option.bind_eq_bind, Option.bind_some, hnb, if_false]
    obtain ⟨t1, e1, g1, p1, l1, c1⟩ := step
    obtain ⟨t2, e2, g2, p2, l2, c2⟩ := C92_grow ho hf maxNodes es t1 g1
    refine ⟨t2, ?_, g2, p1.trans p2, ?_, ?_⟩
    · simp only [RrtStar.growTree, hlt, if_true, e1, Option.bind_eq_bind, Option.bind_some]
      exact e2
    · have := le_max_left maxNodes t.state.length
      omega
    · intro i a hi
      obtain ⟨a1, h1, h2⟩ := c1 i a hi
      obtain ⟨a2, h3, h4⟩ := c2 i a1 h1
      exact ⟨a2, h3, h4.trans h2⟩

/-- C92. The tree of a new `RrtStar` is consistent, so every tree that `grow_tree` makes from it is. -/
theorem C92_init (goal : Fin 3 → K) : GoodTree (RrtStar.init goal) := (init_inv goal).good

/-! ## The hypotheses are met: a tree in which a node with a child is rewired -/

/-- Straight connections whose cost is the squared distance. -/
def exConnect (x1 x2 : Fin 3 → ℚ) : Option (Path ℚ) :=
  some ⟨(x1 0 - x2 0) ^ 2 + (x1 1 - x2 1) ^ 2, [x1, x2], [0, 0], [1]⟩

/-- Iteration in increasing order. -/
def exOrd (s : Finset ℕ) : List ℕ := (List.range (s.sup id + 1)).filter (· ∈ s)

theorem exOrd_ok : IterOk exOrd := by
  intro s
  refine ⟨List.nodup_range.filter _, fun j => ?_⟩
  simp only [exOrd, List.mem_filter, List.mem_range, decide_eq_true_eq, and_iff_right_iff_imp]
  intro h
  exact Nat.lt_succ_of_le (Finset.le_sup (f := id) h)

theorem exConnect_ok : PathsOk exConnect := by
  rintro x1 x2 q ⟨⟩
  exact ⟨by positivity, rfl, rfl⟩

example : ((init ![0, 0, 0]).connect exOrd exConnect ![3, 0, 0] [0]).bind (fun r =>
    (r.1.connect exOrd exConnect ![4, 0, 0] [1]).bind fun r => (r.1.connect exOrd exConnect ![2, 0, 0] [0, 1, 2]).map fun r' =>
      (r.1.costRoot, r'.1.costRoot, r.1.parent, r'.1.parent)) =
    some ([0, 9, 10], [0, 5, 6, 4], [none, some 0, some 1], [none, some 3, some 1, some 0]) := by
  decide +kernel

example (rounds : List (Round ℚ)) : ∃ t', (init ![0, 0, 0]).growTree exOrd exConnect 100 rounds = some t' ∧ GoodTree t' := by
  obtain ⟨t', h1, h2, -⟩ := C92_grow exOrd_ok exConnect_ok 100 rounds _ (C92_init ![0, 0, 0])
  exact ⟨t', h1, h2⟩

end NNL.Props
