import Verif.Props.CarSimExamples
import Verif.Props.RrtStar
import Verif.Props.Sampling
import Verif.Model.RrtGrow
import Verif.Spec.RrtGrow

/-!
# C125: what `RrtStar` puts into its tree
-/

namespace NNL.Props

open NNL NNL.Model NNL.Spec NNL.Model.RrtStar Set Real

/-- The controls between the limits. -/
theorem sampled_control {uLo uUp : Fin 2 → ℝ} (hle : ∀ i, uLo i ≤ uUp i) {r : List ℝ} (hr : Draws 2 r) (i : Fin 2) :
    uLo i ≤ (sampleInBoxRow (List.ofFn uLo) (List.ofFn uUp) r).getD i 0 ∧ (sampleInBoxRow (List.ofFn uLo) (List.ofFn uUp) r).getD i 0 ≤ uUp i := by
  obtain ⟨h2, h01⟩ := hr
  match r, h2 with
  | [a, b], _ =>
    have ha := h01 a (by simp)
    have hb := h01 b (by simp)
    have h0 := hle 0
    have h1 := hle 1
    fin_cases i
    · simp only [sampleInBoxRow, List.ofFn_succ, List.ofFn_zero, List.zipWith_cons_cons, Fin.zero_eta]
      norm_num
      constructor <;> nlinarith
    · simp only [sampleInBoxRow, List.ofFn_succ, List.ofFn_zero, List.zipWith_cons_cons, Fin.mk_one]
      norm_num
      constructor <;> nlinarith

/-- **C125** (extending a node). `extend_node` raises only without samples or at a missing node; what it returns is where the plant gets from
the node in the time `dt` with one of the sampled controls, which respect the limits, and no other sampled control gets closer. -/
theorem C125_extend {f : (Fin 3 → ℝ) → (Fin 2 → ℝ) → Fin 3 → ℝ} {next : (Fin 3 → ℝ) → (Fin 2 → ℝ) → ℝ → Fin 3 → ℝ} (hn : Samples f next)
    {uLo uUp : Fin 2 → ℝ} (hle : ∀ i, uLo i ≤ uUp i) (t : RrtStar ℝ) {n : ℕ} {s : Fin 3 → ℝ} (hs : t.state[n]? = some s)
    (draws : List (List ℝ)) (hne : draws ≠ []) (hd : ∀ r ∈ draws, Draws 2 r) {dt : ℝ} (hdt : 0 ≤ dt) (x : Fin 3 → ℝ) :
    ∃ z, t.extendNode next uLo uUp n draws dt x = some z ∧ (∃ u, (∀ i, uLo i ≤ u i ∧ u i ≤ uUp i) ∧ Moves f u dt s z) ∧
      ∀ us, sampleInBox (List.ofFn uLo) (List.ofFn uUp) draws = some us →
        (∃ u ∈ us, z = next s (fun i => u.getD i 0) dt) ∧
        ∀ u ∈ us, stateDistance z x ≤ stateDistance (next s (fun i => u.getD i 0) dt) x := by
  have hbox : sampleInBox (List.ofFn uLo) (List.ofFn uUp) draws = some (draws.map (sampleInBoxRow (List.ofFn uLo) (List.ofFn uUp))) :=
    if_pos (by simp)
  set us := draws.map (sampleInBoxRow (List.ofFn uLo) (List.ofFn uUp)) with hus
  set sims := us.map (fun u => next s (fun i => u.getD i 0) dt) with hsims
  obtain ⟨k, hk, h1, h2, -⟩ := argmin_spec (sims.map fun z => stateDistance z x) (by simpa [hsims, hus] using hne)
  have hk' : k < sims.length := by simpa using hk
  have hmem : sims[k] ∈ sims := List.getElem_mem hk'
  obtain ⟨u, hu, hz⟩ := List.mem_map.1 hmem
  refine ⟨sims[k], ?_, ?_, ?_⟩
  · simp only [extendNode, hbox, hs, Option.bind_eq_bind, Option.bind_some]
    rw [← hsims, h1, Option.bind_some, List.getElem?_eq_getElem hk']
  · obtain ⟨r, hr, rfl⟩ := List.mem_map.1 hu
    refine ⟨_, sampled_control hle (hd r hr), ?_⟩
    obtain ⟨X, h0, hX, hX1⟩ := hn s (fun i => (sampleInBoxRow (List.ofFn uLo) (List.ofFn uUp) r).getD i 0) dt hdt
    exact ⟨X, h0, by rw [← hX1, hz], hX⟩
  · intro us' hus'
    rw [hbox, Option.some.injEq] at hus'
    subst hus'
    refine ⟨⟨u, hu, hz.symm⟩, fun v hv => ?_⟩
    have := h2 (stateDistance (next s (fun i => v.getD i 0) dt) x) (List.mem_map.2 ⟨_, List.mem_map.2 ⟨v, hv, rfl⟩, rfl⟩)
    simpa using this

/-- `extend_node` raises without samples. -/
theorem C125_extend_raises (next : (Fin 3 → ℝ) → (Fin 2 → ℝ) → ℝ → Fin 3 → ℝ) (uLo uUp : Fin 2 → ℝ) (t : RrtStar ℝ) (n : ℕ) (dt : ℝ)
    (x : Fin 3 → ℝ) : t.extendNode next uLo uUp n [] dt x = none := by
  simp only [extendNode, sampleInBox, List.map_nil, List.length_ofFn, if_true, Option.bind_eq_bind, Option.bind_some, argmin, Option.bind_none]
  cases t.state[n]? <;> rfl

/-- **C125** (sampled states). The sampled states are those of a box. -/
theorem C125_sample (x : Fin 3 → ℝ) : (∃ r : Fin 3 → ℝ, (∀ i, 0 ≤ r i ∧ r i < 1) ∧ sampleState r = x) ↔
    (-5 ≤ x 0 ∧ x 0 < 5) ∧ (-5 ≤ x 1 ∧ x 1 < 5) ∧ -1.2 * π ≤ x 2 ∧ x 2 < 1.2 * π := by
  have hp := Real.pi_pos
  constructor
  · rintro ⟨r, hr, rfl⟩
    obtain ⟨a0, b0⟩ := hr 0
    obtain ⟨a1, b1⟩ := hr 1
    obtain ⟨a2, b2⟩ := hr 2
    simp only [sampleState, Matrix.cons_val_zero, Matrix.cons_val_one, Matrix.cons_val]
    refine ⟨⟨by linarith, by linarith⟩, ⟨by linarith, by linarith⟩, by nlinarith, by nlinarith⟩
  · rintro ⟨⟨a0, b0⟩, ⟨a1, b1⟩, a2, b2⟩
    refine ⟨![(x 0 + 5) / 10, (x 1 + 5) / 10, (x 2 + 1.2 * π) / (2.4 * π)], fun i => ?_, ?_⟩
    · fin_cases i
      · simp only [Fin.zero_eta, Matrix.cons_val_zero]
        constructor <;> linarith
      · simp only [Fin.mk_one, Matrix.cons_val_one, Matrix.cons_val_zero]
        constructor <;> linarith
      · simp only [Fin.reduceFinMk, Matrix.cons_val]
        rw [le_div_iff₀ (by positivity), div_lt_iff₀ (by positivity)]
        constructor <;> linarith
    · funext i
      fin_cases i
      · simp only [sampleState, Fin.zero_eta, Matrix.cons_val_zero]; ring
      · simp only [sampleState, Fin.mk_one, Matrix.cons_val_one, Matrix.cons_val_zero]; ring
      · simp only [sampleState, Fin.reduceFinMk, Matrix.cons_val]
        field_simp
        ring

/-- What a round of `grow_tree` does, with the state `extend_node` finds. -/
theorem growStepSim_eq {next : (Fin 3 → ℝ) → (Fin 2 → ℝ) → ℝ → Fin 3 → ℝ} {uLo uUp : Fin 2 → ℝ} {ord : Finset ℕ → List ℕ}
    {findPath : (Fin 3 → ℝ) → (Fin 3 → ℝ) → Option (Path ℝ)} {t : RrtStar ℝ} {d : RoundDraws} {n : ℕ} {z : Fin 3 → ℝ}
    (hnn : t.nearestNode (sampleState d.state) = some n) (hsn : n < t.state.length)
    (hz : t.extendNode next uLo uUp n d.controls (1 / 20) (sampleState d.state) = some z) :
    t.growStepSim next uLo uUp ord findPath d = t.growStep ord findPath ⟨sampleState d.state, fun _ => z⟩ := by
  simp only [growStepSim, growStep, hnn, hz, Option.bind_eq_bind, Option.bind_some, List.getElem?_eq_getElem hsn]

/-- **C125** (growing). With at least one sampled control per round `grow_tree` never fails; its tree is consistent, it keeps the old states,
has at most the wanted number of nodes, and if the plant can drive from the goal to the state of each node `i` in at most `i` motions
of 0.05 s within the limits of the control, then still so afterwards. -/
theorem C125_grow {f : (Fin 3 → ℝ) → (Fin 2 → ℝ) → Fin 3 → ℝ} {next : (Fin 3 → ℝ) → (Fin 2 → ℝ) → ℝ → Fin 3 → ℝ} (hn : Samples f next)
    {uLo uUp : Fin 2 → ℝ} (hle : ∀ i, uLo i ≤ uUp i) {ord : Finset ℕ → List ℕ}
    {findPath : (Fin 3 → ℝ) → (Fin 3 → ℝ) → Option (Path ℝ)} (ho : IterOk ord) (hf : PathsOk findPath) (maxNodes : ℕ) (goal : Fin 3 → ℝ) :
    ∀ (ds : List RoundDraws) (t : RrtStar ℝ), (∀ d ∈ ds, d.controls ≠ [] ∧ ∀ r ∈ d.controls, Draws 2 r) → GoodTree t →
      (∀ (i : ℕ) s, t.state[i]? = some s → ∃ k ≤ i, Drives f uLo uUp (1 / 20) k goal s) →
      ∃ t', t.growTreeSim next uLo uUp ord findPath maxNodes ds = some t' ∧ GoodTree t' ∧ t.state <+: t'.state ∧
        t'.state.length ≤ max maxNodes t.state.length ∧
        ∀ (i : ℕ) s, t'.state[i]? = some s → ∃ k ≤ i, Drives f uLo uUp (1 / 20) k goal s
  | [], t, _, ht, hr => ⟨t, rfl, ht, List.prefix_rfl, le_max_right _ _, hr⟩
  | d :: ds, t, hds, ht, hr => by
    by_cases hlt : t.state.length < maxNodes
    swap
    · exact ⟨t, by simp [growTreeSim, hlt], ht, List.prefix_rfl, le_max_right _ _, hr⟩
    obtain ⟨n, s, hnn, hsn, -⟩ := C92_nearest t ht (sampleState d.state)
    have hlen := (List.getElem?_eq_some_iff.1 hsn).1
    obtain ⟨z, hz, ⟨u, hu, hmove⟩, -⟩ := C125_extend hn hle t hsn d.controls (hds d (by simp)).1 (hds d (by simp)).2 (dt := 1 / 20)
      (by norm_num) (sampleState d.state)
    have heq := growStepSim_eq (ord := ord) (findPath := findPath) hnn hlen hz
    have step : ∃ t1, t.growStepSim next uLo uUp ord findPath d = some t1 ∧ GoodTree t1 ∧ (t1.state = t.state ∨ t1.state = t.state ++ [z]) := by
      rw [heq]
      by_cases hnb : 0 < (t.neighbours z (1 / 5)).length
      · obtain ⟨t1, r, hc, hg, h1, h2⟩ := C92_connect ho hf ht z (t.neighbours z (1 / 5)) (by
          intro j hj
          obtain ⟨s', hs', -⟩ := (C92_neighbours t _ _ j).1 hj
          exact (List.getElem?_eq_some_iff.1 hs').1)
        refine ⟨t1, ?_, hg, ?_⟩
        · simp only [growStep, hnn, hsn, Option.bind_eq_bind, Option.bind_some, hnb, if_true, hc]
        · cases r with
          | none => exact Or.inl (by rw [(h1 rfl).1])
          | some m => exact Or.inr (h2 m rfl).2.1
      · exact ⟨t, by simp only [growStep, hnn, hsn, Option.bind_eq_bind, Option.bind_some, hnb, if_false], ht, Or.inl rfl⟩
    obtain ⟨t1, e1, g1, s1⟩ := step
    have hr1 : ∀ (i : ℕ) s, t1.state[i]? = some s → ∃ k ≤ i, Drives f uLo uUp (1 / 20) k goal s := by
      rcases s1 with s1 | s1
      · rw [s1]; exact hr
      · rw [s1]
        intro i s' hs'
        rcases lt_trichotomy i t.state.length with hi | hi | hi
        · rw [List.getElem?_append_left hi] at hs'
          exact hr i s' hs'
        · rw [hi, List.getElem?_concat_length, Option.some.injEq] at hs'
          obtain ⟨k, hk, hk'⟩ := hr n s hsn
          exact ⟨k + 1, by omega, hs' ▸ Drives.move u hk' hu hmove⟩
        · rw [List.getElem?_eq_none (by simp; omega)] at hs'
          cases hs'
    obtain ⟨t2, e2, g2, p2, l2, c2⟩ := C125_grow hn hle ho hf maxNodes goal ds t1 (fun d hd => hds d (List.mem_cons_of_mem _ hd)) g1 hr1
    have hp : t.state <+: t1.state := by
      rcases s1 with s1 | s1 <;> rw [s1]
      exact List.prefix_append _ _
    have hl : t1.state.length ≤ t.state.length + 1 := by
      rcases s1 with s1 | s1 <;> simp [s1]
    refine ⟨t2, ?_, g2, hp.trans p2, ?_, c2⟩
    · simp only [growTreeSim, hlt, if_true, e1, Option.bind_eq_bind, Option.bind_some]
      exact e2
    · have := le_max_left maxNodes t.state.length
      omega

/-- **C125** (the tree of a new `RrtStar`). The plant can drive from the goal to the state of each node. -/
theorem C125_reachable {f : (Fin 3 → ℝ) → (Fin 2 → ℝ) → Fin 3 → ℝ} {next : (Fin 3 → ℝ) → (Fin 2 → ℝ) → ℝ → Fin 3 → ℝ} (hn : Samples f next)
    {uLo uUp : Fin 2 → ℝ} (hle : ∀ i, uLo i ≤ uUp i) {ord : Finset ℕ → List ℕ}
    {findPath : (Fin 3 → ℝ) → (Fin 3 → ℝ) → Option (Path ℝ)} (ho : IterOk ord) (hf : PathsOk findPath) (maxNodes : ℕ) (goal : Fin 3 → ℝ)
    (ds : List RoundDraws) (hds : ∀ d ∈ ds, d.controls ≠ [] ∧ ∀ r ∈ d.controls, Draws 2 r) :
    ∃ t, (RrtStar.init goal).growTreeSim next uLo uUp ord findPath maxNodes ds = some t ∧ GoodTree t ∧ t.state[0]? = some goal ∧
      ∀ (i : ℕ) s, t.state[i]? = some s → ∃ k ≤ i, Drives f uLo uUp (1 / 20) k goal s := by
  obtain ⟨t, h1, h2, h3, -, h4⟩ := C125_grow hn hle ho hf maxNodes goal ds (RrtStar.init goal) hds (C92_init goal) (by
    intro i s hs
    cases i with
    | zero =>
      simp only [RrtStar.init, List.getElem?_cons_zero, Option.some.injEq] at hs
      exact ⟨0, le_rfl, hs ▸ Drives.stay goal⟩
    | succ i => simp [RrtStar.init] at hs)
  refine ⟨t, h1, h2, ?_, h4⟩
  obtain ⟨rest, hrest⟩ := h3
  rw [← hrest]
  rfl

/-- One motion of the car. -/
theorem moves_unicycle {u : Fin 2 → ℝ} {dt : ℝ} (hdt : 0 ≤ dt) {y z : Fin 3 → ℝ} (h : Moves unicycleDyn u dt y z) :
    z 2 = y 2 + u 1 * dt ∧ |z 0 - y 0| ≤ |u 0| * dt ∧ |z 1 - y 1| ≤ |u 0| * dt := by
  classical
  set next : (Fin 3 → ℝ) → (Fin 2 → ℝ) → ℝ → Fin 3 → ℝ := fun a b c => if a = y ∧ b = u ∧ c = dt then z else exDrive a b c with hnext
  have hs : Samples unicycleDyn next := by
    intro a b c hc
    by_cases hh : a = y ∧ b = u ∧ c = dt
    · obtain ⟨rfl, rfl, rfl⟩ := hh
      obtain ⟨X, h0, h1, h2⟩ := h
      exact ⟨X, h0, h2, by simp [hnext, h1]⟩
    · obtain ⟨X, h0, h2, h1⟩ := exDrive_samples a b c hc
      exact ⟨X, h0, h2, by simp [hnext, hh, h1]⟩
  have := samples_unicycle hs y u hdt
  simpa [hnext] using this

/-- **C125** (how far the tree gets). With the unicycle, node `i` is at most `0.05 i` times the largest speed away from the goal in each
coordinate of the position, and turned by at most `0.05 i` times the largest rate. -/
theorem C125_range {uLo uUp : Fin 2 → ℝ} {v w : ℝ} (hv : -v ≤ uLo 0 ∧ uUp 0 ≤ v) (hw : -w ≤ uLo 1 ∧ uUp 1 ≤ w) {goal : Fin 3 → ℝ} {k : ℕ}
    {s : Fin 3 → ℝ} (h : Drives unicycleDyn uLo uUp (1 / 20) k goal s) :
    |s 0 - goal 0| ≤ k / 20 * v ∧ |s 1 - goal 1| ≤ k / 20 * v ∧ |s 2 - goal 2| ≤ k / 20 * w := by
  induction h with
  | stay => simp
  | @move k x y z u hd hu hm ih =>
    obtain ⟨m2, m0, m1⟩ := moves_unicycle (by norm_num) hm
    obtain ⟨i0, i1, i2⟩ := ih
    have h0 : |u 0| ≤ v := abs_le.2 ⟨by linarith [(hu 0).1], by linarith [(hu 0).2]⟩
    have h1 : |u 1| ≤ w := abs_le.2 ⟨by linarith [(hu 1).1], by linarith [(hu 1).2]⟩
    push_cast
    refine ⟨?_, ?_, ?_⟩
    · have := abs_sub_le (z 0) (y 0) (x 0)
      linarith
    · have := abs_sub_le (z 1) (y 1) (x 1)
      linarith
    · have := abs_sub_le (z 2) (y 2) (x 2)
      have e : |z 2 - y 2| = |u 1| * (1 / 20) := by
        rw [m2, add_sub_cancel_left, abs_mul, abs_of_pos (by norm_num : (0 : ℝ) < 1 / 20)]
      linarith

/-- **C125** (files). Loading what was saved gives the tree, whatever the tree it is loaded into; an incomplete file raises. -/
theorem C125_file {K : Type} (t t' : RrtStar K) :
    loadTree (saveTree t) t' = some t ∧ ∀ e ∈ saveTree t, loadTree ((saveTree t).filter fun d => d.1 ≠ e.1) t' = none := by
  have hj : ∀ l : List (Option (List (Fin 3 → K) × List (Fin 2 → K) × List K)),
      joinPaths (l.map fun o => o.map fun p => p.1) (l.map fun o => o.map fun p => p.2.1) (l.map fun o => o.map fun p => p.2.2) = l := by
    intro l
    induction l with
    | nil => rfl
    | cons o l ih =>
      simp only [joinPaths] at ih
      simp only [joinPaths, List.map_cons, List.zip_cons_cons, List.zipWith_cons_cons, ih]
      cases o <;> rfl
  constructor
  · simp [loadTree, saveTree, List.lookup, hj]
  · have hlk : ∀ (k : String) (l : List (String × FileEntry K)), List.lookup k (l.filter fun d => d.1 ≠ k) = none := by
      intro k l
      rw [List.lookup_eq_none_iff]
      intro d hd
      simpa using Ne.symm (by simpa using (List.mem_filter.1 hd).2)
    intro e he
    have hk : e.1 ∈ (saveTree t).map Prod.fst := List.mem_map_of_mem he
    have h0 := hlk e.1 (saveTree t)
    generalize (saveTree t).filter (fun d => d.1 ≠ e.1) = l at h0 ⊢
    generalize e.1 = k at hk h0
    simp only [saveTree, List.map_cons, List.map_nil, List.mem_cons, List.not_mem_nil, or_false] at hk
    rw [Option.eq_none_iff_forall_ne_some]
    intro r hr
    unfold loadTree at hr
    obtain ⟨v1, e1, hr⟩ := Option.bind_eq_some_iff.1 hr
    obtain ⟨v2, e2, hr⟩ := Option.bind_eq_some_iff.1 hr
    obtain ⟨v3, e3, hr⟩ := Option.bind_eq_some_iff.1 hr
    obtain ⟨v4, e4, hr⟩ := Option.bind_eq_some_iff.1 hr
    obtain ⟨v5, e5, hr⟩ := Option.bind_eq_some_iff.1 hr
    obtain ⟨v6, e6, hr⟩ := Option.bind_eq_some_iff.1 hr
    obtain ⟨v7, e7, hr⟩ := Option.bind_eq_some_iff.1 hr
    obtain ⟨v8, e8, -⟩ := Option.bind_eq_some_iff.1 hr
    rcases hk with rfl | rfl | rfl | rfl | rfl | rfl | rfl | rfl
    · cases h0.symm.trans e1
    · cases h0.symm.trans e2
    · cases h0.symm.trans e3
    · cases h0.symm.trans e4
    · cases h0.symm.trans e5
    · cases h0.symm.trans e6
    · cases h0.symm.trans e7
    · cases h0.symm.trans e8

/-! ## Examples -/

/-- A planner which connects all states directly. -/
def exFindPath (x1 x2 : Fin 3 → ℝ) : Option (Path ℝ) := some ⟨1, [x1, x2], [0, 0], [0.02]⟩

theorem exFindPath_ok : PathsOk exFindPath := by
  intro x1 x2 q h
  simp only [exFindPath, Option.some.injEq] at h
  subst h
  exact ⟨zero_le_one, rfl, rfl⟩

/-- A tree of at most 10 nodes with exact simulations of the unicycle, two sampled controls in each round. -/
example (rs : List (Fin 3 → ℝ)) : ∃ t, (RrtStar.init 0).growTreeSim exDrive ![-3, -1] ![6, 1] exOrd exFindPath 10
      (rs.map fun r => ⟨r, [[1 / 2, 1 / 2], [0, 3 / 4]]⟩) = some t ∧ GoodTree t ∧
    ∀ (i : ℕ) s, t.state[i]? = some s → |s 0| ≤ i / 20 * 6 := by
  obtain ⟨t, h1, h2, -, h3⟩ := C125_reachable exDrive_samples (uLo := ![-3, -1]) (uUp := ![6, 1])
    (fun i => by fin_cases i <;> norm_num) exOrd_ok exFindPath_ok 10 0 (rs.map fun r => ⟨r, [[1 / 2, 1 / 2], [0, 3 / 4]]⟩) (by
      intro d hd
      obtain ⟨r, -, rfl⟩ := List.mem_map.1 hd
      refine ⟨by simp, fun l hl => ?_⟩
      simp only [List.mem_cons, List.not_mem_nil, or_false] at hl
      rcases hl with rfl | rfl <;> refine ⟨rfl, fun v hv => ?_⟩ <;> simp only [List.mem_cons, List.not_mem_nil, or_false] at hv <;>
        rcases hv with rfl | rfl <;> norm_num)
  refine ⟨t, h1, h2, fun i s hs => ?_⟩
  obtain ⟨k, hk, hd⟩ := h3 i s hs
  have := (C125_range (v := 6) (w := 1) (by norm_num) (by norm_num) hd).1
  have hki : (k : ℝ) ≤ i := by exact_mod_cast hk
  simp only [Pi.zero_apply, sub_zero] at this
  linarith

/-- The first round adds a node: the control `0` is drawn. -/
example : ∃ t, (RrtStar.init 0).growTreeSim exDrive ![-1, -1] ![1, 1] exOrd exFindPath 10 [⟨0, [[1 / 2, 1 / 2]]⟩] = some t ∧ t.state = [0, 0] := by
  have hz : (RrtStar.init (0 : Fin 3 → ℝ)).extendNode exDrive ![-1, -1] ![1, 1] 0 [[1 / 2, 1 / 2]] (1 / 20) (sampleState 0) = some 0 := by
    simp only [extendNode, sampleInBox, sampleInBoxRow, RrtStar.init, List.map_cons, List.map_nil, argmin, List.ofFn_succ, List.ofFn_zero,
      Option.bind_eq_bind, Option.bind_some, List.getElem?_cons_zero, List.length_cons, List.length_nil, if_true, List.zipWith_cons_cons,
      List.zipWith_nil_right, Option.some.injEq]
    funext i
    fin_cases i <;> norm_num [exDrive]
  have hnn : (RrtStar.init (0 : Fin 3 → ℝ)).nearestNode (sampleState (0 : Fin 3 → ℝ)) = some 0 := rfl
  have hnb : (RrtStar.init (0 : Fin 3 → ℝ)).neighbours 0 (1 / 5) = [0] := by
    simp [neighbours, RrtStar.init, stateDistance]
  obtain ⟨t1, r, hc, -, h1, h2⟩ := C92_connect exOrd_ok exFindPath_ok (C92_init (0 : Fin 3 → ℝ)) 0 [0] (by simp [RrtStar.init])
  have hr : ∃ n, r = some n := by
    cases r with
    | some n => exact ⟨n, rfl⟩
    | none => exact absurd ((h1 rfl).2 0 (by simp) 0 rfl) (by simp [exFindPath])
  obtain ⟨n, rfl⟩ := hr
  refine ⟨t1, ?_, by rw [(h2 n rfl).2.1]; rfl⟩
  simp only [growTreeSim, growStepSim, hnn, hz, hnb, hc, Option.bind_eq_bind, Option.bind_some]
  simp [RrtStar.init]

end NNL.Props
