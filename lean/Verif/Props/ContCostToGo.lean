import Verif.Spec.ContCostToGo
import Verif.Props.Rollout
import Mathlib.Analysis.SpecialFunctions.Integrals.Basic

/-!
C109: the simulated cost-to-go of continuous-time systems.
-/

namespace NNL.Props

open NNL NNL.Model NNL.Spec MeasureTheory

/-- The vector field is that of a mode that contains the state. -/
theorem firstSucc_mode {S : AutoHybrid ℝ} {x d : Vec ℝ} (h : firstSucc S x = some d) :
    ∃ md ∈ S.modes, (∀ i, i < md.q.length → dot (md.P.getD i []) x ≤ md.q.getD i 0) ∧
      d = vadd (matVec md.A x) md.g := by
  unfold firstSucc at h
  split at h
  · cases h
  · rename_i j hj
    obtain ⟨j', e, ⟨md, hm, hp⟩, -⟩ := (firstIdx_some _ _ _ _).1 hj
    obtain rfl : j = j' := by omega
    rw [hm] at h
    refine ⟨md, List.mem_of_getElem? hm, ?_, (Option.some.inj h).symm⟩
    intro i hi
    have := List.all_eq_true.1 hp i (List.mem_range.2 hi)
    exact of_decide_eq_true this

theorem intervalIntegrable_sub {f : ℝ → ℝ} {h s t : ℝ} (hf : IntervalIntegrable f volume 0 h) (hs : 0 ≤ s)
    (hst : s ≤ t) (ht : t ≤ h) : IntervalIntegrable f volume s t := by
  refine hf.mono_set ?_
  rw [Set.uIcc_of_le hst, Set.uIcc_of_le (by linarith)]
  exact Set.Icc_subset_Icc hs ht

/-- The rest of a trajectory is a trajectory. -/
theorem follows_shift {S : AutoHybrid ℝ} {h s : ℝ} {x : ℝ → Vec ℝ} (hx : Follows S h x) (hs : 0 ≤ s)
    (hsh : s ≤ h) : Follows S (h - s) fun t => x (s + t) := by
  obtain ⟨d, h1, h2⟩ := hx
  refine ⟨fun t => d (s + t), fun t t0 t1 => h1 (s + t) (by linarith) (by linarith), fun j hj => ?_⟩
  obtain ⟨hi, he⟩ := h2 j hj
  constructor
  · have := (intervalIntegrable_sub hi hs hsh le_rfl).comp_add_left s
    simpa using this
  · intro t t0 t1
    have e1 := he (s + t) (by linarith) (by linarith)
    have e2 := he s hs hsh
    have e3 := intervalIntegral.integral_add_adjacent_intervals
      (intervalIntegrable_sub hi le_rfl hs hsh)
      (intervalIntegrable_sub hi hs (by linarith : s ≤ s + t) (by linarith))
    have e4 : ∫ τ in (0 : ℝ)..t, (d (s + τ)).getD j 0 = ∫ τ in s..(s + t), (d τ).getD j 0 := by
      rw [intervalIntegral.integral_comp_add_left (fun τ => (d τ).getD j 0) s, add_zero]
    simp only [add_zero]
    rw [e1, e2, e4, ← e3]
    ring

theorem getD_take_lt (v : Vec ℝ) (n j : ℕ) (h : j < n) : (v.take n).getD j 0 = v.getD j 0 := by
  simp [List.getD_eq_getElem?_getD, h]

theorem getLastD_at (v : Vec ℝ) (n : ℕ) (h : v.length = n + 1) : v.getLastD 0 = v.getD n 0 := by
  rw [List.getLastD_eq_getLast?, List.getLast?_eq_getElem?, h, List.getD_eq_getElem?_getD]
  rfl

/-- What the solution of the augmented system says about the system and the cost. -/
theorem ivp_system {S : AutoHybrid ℝ} {cost : Vec ℝ → ℝ} {T δ : ℝ} {x0 : Vec ℝ} {ev : Option (Vec ℝ → ℝ)}
    {sol : List (ℝ × Vec ℝ)} {y : ℝ → Vec ℝ} {te : ℝ}
    (hS : ∀ md ∈ S.modes, md.A.length = S.xdim ∧ md.g.length = S.xdim) (hx0 : x0.length = S.xdim)
    (h : IvpOk δ (ivpFun S cost) T (x0 ++ [0]) ev sol y te) (hte : 0 ≤ te) :
    Follows S te (fun t => (y t).take S.xdim) ∧ (y 0).take S.xdim = x0 ∧
      IntervalIntegrable (fun t => cost ((y t).take S.xdim)) volume 0 te ∧
      ∀ t, 0 ≤ t → t ≤ te → (y t).length = S.xdim + 1 ∧
        (y t).getD S.xdim 0 = ∫ τ in (0 : ℝ)..t, cost ((y τ).take S.xdim) := by
  obtain ⟨d, hd, hj⟩ := h.solves
  have hl : (x0 ++ [0] : Vec ℝ).length = S.xdim + 1 := by simp [hx0]
  rw [hl] at hd hj
  have key : ∀ t, 0 ≤ t → t ≤ te → ∃ d', firstSucc S ((y t).take S.xdim) = some d' ∧ d'.length = S.xdim ∧
      d t = d' ++ [cost ((y t).take S.xdim)] := by
    intro t t0 t1
    obtain ⟨-, hf⟩ := hd t t0 t1
    obtain ⟨d', e1, e2⟩ := Option.map_eq_some_iff.1 hf
    refine ⟨d', e1, ?_, e2.symm⟩
    obtain ⟨md, hm, -, e⟩ := firstSucc_mode e1
    rw [e]
    simp [hS md hm]
  have hlast : ∀ t, 0 ≤ t → t ≤ te → (d t).getD S.xdim 0 = cost ((y t).take S.xdim) := by
    intro t t0 t1
    obtain ⟨d', -, e2, e3⟩ := key t t0 t1
    rw [e3, List.getD_eq_getElem?_getD, List.getElem?_append_right (by omega)]
    simp [e2]
  refine ⟨⟨fun t => (d t).take S.xdim, fun t t0 t1 => ?_, fun j hjn => ?_⟩, ?_, ?_, ?_⟩
  · obtain ⟨hlen, -⟩ := hd t t0 t1
    obtain ⟨d', e1, e2, e3⟩ := key t t0 t1
    obtain ⟨md, hm, hp, e⟩ := firstSucc_mode e1
    refine ⟨by rw [List.length_take, hlen]; omega, md, hm, hp, ?_⟩
    show (d t).take S.xdim = vadd (matVec md.A ((y t).take S.xdim)) md.g
    rw [e3, ← e]
    simp [← e2]
  · obtain ⟨hi, he⟩ := hj j (by omega)
    have e : ∀ t, ((d t).take S.xdim).getD j 0 = (d t).getD j 0 := fun t => getD_take_lt _ _ _ hjn
    simp only [e, getD_take_lt _ _ _ hjn]
    refine ⟨hi, fun t t0 t1 => ?_⟩
    rw [he t t0 t1, h.start]
  · rw [h.start]
    simp [← hx0]
  · obtain ⟨hi, -⟩ := hj S.xdim (by omega)
    refine hi.congr ?_
    intro t ht
    rw [Set.uIoc_of_le hte] at ht
    exact hlast t ht.1.le ht.2
  · intro t t0 t1
    refine ⟨(hd t t0 t1).1, ?_⟩
    rw [(hj S.xdim (by omega)).2 t t0 t1, List.getD_eq_getElem?_getD, List.getElem?_append_right (by omega)]
    simp only [hx0, Nat.sub_self, List.getElem?_cons_zero, Option.getD_some, zero_add]
    refine intervalIntegral.integral_congr fun τ hτ => ?_
    rw [Set.uIcc_of_le t0] at hτ
    exact hlast τ hτ.1 (by linarith [hτ.2])

theorem close_dropLast {δ : ℝ} {a b : Vec ℝ} {n : ℕ} (h : Close δ a b) (hb : b.length = n + 1)
    (hδ : 0 ≤ δ) : Close δ a.dropLast (b.take n) := by
  have e : a.dropLast = a.take n := by rw [List.dropLast_eq_take, h.1, hb, Nat.add_sub_cancel]
  rw [e]
  refine ⟨by simp [h.1], fun j => ?_⟩
  by_cases hj : j < n
  · rw [getD_take_lt _ _ _ hj, getD_take_lt _ _ _ hj]
    exact h.2 j
  · have z : ∀ v : Vec ℝ, (v.take n).getD j 0 = 0 := by
      intro v
      rw [List.getD_eq_getElem?_getD, List.getElem?_eq_none (by rw [List.length_take]; omega)]
      rfl
    rw [z, z, sub_zero, abs_zero]
    exact hδ

/-- **C109**. If the integrator is right up to `δ`, the returned states are, up to `δ`, the points at some times
`0 = t_0, ..., t_last = te` of one trajectory of the system from `x0`. It runs until `T`, or until the distance to
the goal is `1e-3`. The total cost is the integral of the cost along the trajectory (up to `δ`), and entry `i` of
the cost-to-go is (up to `2 δ`) the integral of the cost along a trajectory that starts at the `i`'th state and
runs for the remaining time `te - t_i`. -/
theorem C109_cost_to_go (solve : IvpSolver) (S : AutoHybrid ℝ) (x0 : Vec ℝ) (T δ : ℝ) (hδ : 0 ≤ δ)
    (cost : Vec ℝ → ℝ) (goal : Option (Vec ℝ)) (total : ℝ) (xs : List (Vec ℝ)) (ctg : List ℝ)
    (hS : ∀ md ∈ S.modes, md.A.length = S.xdim ∧ md.g.length = S.xdim)
    (hsolve : ∀ f y0 ev sol, solve f T y0 ev = .ok sol → ∃ y te, IvpOk δ f T y0 ev sol y te)
    (h : contCostToGo solve S x0 T cost goal = .ok (total, xs, ctg)) :
    ∃ (x : ℝ → Vec ℝ) (te : ℝ) (ts : List ℝ),
      x 0 = x0 ∧ 0 ≤ te ∧ te ≤ T ∧ Follows S te x ∧
      (te = T ∨ ∃ g, goal = some g ∧
        Real.sqrt (((vsub (x te) g).map fun a => a * a).sum) = 1 / 1000) ∧
      ts.head? = some 0 ∧ ts.getLast? = some te ∧ xs.length = ts.length ∧ ctg.length = ts.length ∧
      IntervalIntegrable (fun t => cost (x t)) volume 0 te ∧
      |total - ∫ t in (0 : ℝ)..te, cost (x t)| ≤ δ ∧
      ∀ i t, ts[i]? = some t → 0 ≤ t ∧ t ≤ te ∧
        ∃ xi c, xs[i]? = some xi ∧ ctg[i]? = some c ∧ Close δ xi (x t) ∧
          Follows S (te - t) (fun τ => x (t + τ)) ∧
          |c - ∫ τ in (0 : ℝ)..(te - t), cost (x (t + τ))| ≤ 2 * δ ∧
          (i + 1 = ts.length → c = 0) := by
  unfold contCostToGo at h
  split at h
  rotate_left
  · cases h
  rename_i hc
  obtain ⟨-, hx0⟩ := hc
  split at h
  · cases h
  rename_i sol hsol
  simp only [Except.ok.injEq, Prod.mk.injEq] at h
  obtain ⟨ht, hxs, hctg⟩ := h
  obtain ⟨y, te, hy⟩ := hsolve _ _ _ _ hsol
  obtain ⟨pl, hpl⟩ : ∃ p, sol.getLast? = some p := by
    cases e : sol.getLast? with
    | none => exact absurd (List.getLast?_eq_none_iff.1 e) hy.ne
    | some p => exact ⟨p, rfl⟩
  have hmem := List.mem_of_getLast? hpl
  have hlast : pl.1 = te := by
    have := hy.last
    rw [List.getLast?_map, hpl] at this
    exact Option.some.inj this
  have hte : 0 ≤ te := by rw [← hlast]; exact (hy.range pl hmem).1
  obtain ⟨hF, hs0, hI, hV⟩ := ivp_system hS hx0 hy hte
  have hlen : ∀ p ∈ sol, p.2.length = S.xdim + 1 ∧
      |p.2.getLastD 0 - ∫ τ in (0 : ℝ)..p.1, cost ((y τ).take S.xdim)| ≤ δ := by
    intro p hp
    obtain ⟨r0, r1⟩ := hy.range p hp
    obtain ⟨l1, l2⟩ := hV p.1 r0 r1
    have hc := hy.close p hp
    have : p.2.length = S.xdim + 1 := by rw [hc.1, l1]
    refine ⟨this, ?_⟩
    rw [getLastD_at _ _ this, ← l2]
    exact hc.2 S.xdim
  have htot : total = pl.2.getLastD 0 := by
    rw [← ht, List.getLastD_eq_getLast?, List.getLast?_map, hpl]
    rfl
  refine ⟨fun t => (y t).take S.xdim, te, sol.map Prod.fst, hs0, hte, hy.te_le, hF, ?_, hy.first, hy.last,
    by rw [← hxs]; simp, by rw [← hctg]; simp, hI, ?_, ?_⟩
  · rcases hy.stop with e | ⟨g, e1, e2⟩
    · exact Or.inl e
    · right
      obtain ⟨g', eg, rfl⟩ := Option.map_eq_some_iff.1 e1
      refine ⟨g', eg, ?_⟩
      obtain ⟨l1, -⟩ := hV te hte le_rfl
      have : (y te).dropLast = (y te).take S.xdim := by
        rw [List.dropLast_eq_take, l1, Nat.add_sub_cancel]
      rw [goalEvent, this] at e2
      linarith
  · rw [htot, ← hlast]
    exact (hlen pl hmem).2
  · intro i t hi
    rw [List.getElem?_map] at hi
    obtain ⟨p, hp, rfl⟩ := Option.map_eq_some_iff.1 hi
    have hpm := List.mem_of_getElem? hp
    obtain ⟨r0, r1⟩ := hy.range p hpm
    refine ⟨r0, r1, p.2.dropLast, total - p.2.getLastD 0, ?_, ?_, ?_, follows_shift hF r0 r1, ?_, ?_⟩
    · rw [← hxs, List.getElem?_map, hp]; rfl
    · rw [← hctg, List.getElem?_map, hp, ht]; rfl
    · exact close_dropLast (hy.close p hpm) (hV p.1 r0 r1).1 hδ
    · have e4 : ∫ τ in (0 : ℝ)..(te - p.1), cost ((y (p.1 + τ)).take S.xdim) =
          ∫ τ in p.1..te, cost ((y τ).take S.xdim) := by
        rw [intervalIntegral.integral_comp_add_left (fun τ => cost ((y τ).take S.xdim)) p.1, add_zero,
          add_sub_cancel]
      have e3 := intervalIntegral.integral_add_adjacent_intervals
        (intervalIntegrable_sub hI le_rfl r0 r1) (intervalIntegrable_sub hI r0 r1 le_rfl)
      have a1 := (hlen p hpm).2
      have a2 := (hlen pl hmem).2
      rw [hlast] at a2
      simp only
      rw [e4, htot]
      rw [abs_le] at a1 a2 ⊢
      constructor <;> linarith [a1.1, a1.2, a2.1, a2.2]
    · intro hlast'
      rw [List.length_map] at hlast'
      rw [List.getLast?_eq_getElem?, ← hlast', Nat.add_sub_cancel, hp] at hpl
      rw [htot, Option.some.inj hpl, sub_self]

/-- The samples of a continuous-time system: if all horizons and dimensions are as asserted and the integrator
raises at most the exception of a state outside all modes, the call returns exactly the pairs (state, cost-to-go)
of the samples whose simulation succeeded, without the pruned states. -/
theorem C109_samples (solve : IvpSolver) (S : AutoHybrid ℝ) (x0s : List (Vec ℝ)) (T : ℝ) (cost : Vec ℝ → ℝ)
    (goal : Option (Vec ℝ)) (pruner : Option (Vec ℝ → Bool)) (hT : 0 ≤ T)
    (hx : ∀ x0 ∈ x0s, x0.length = S.xdim) (hs : ∀ f y0 ev, solve f T y0 ev ≠ .error .assertion) :
    ∃ l, contSamples solve S x0s T cost goal pruner = .ok l ∧ ∀ x c, (x, c) ∈ l ↔
      (∀ f, pruner = some f → f x = false) ∧ ∃ x0 ∈ x0s, ∃ (total : ℝ) (xs : List (Vec ℝ)) (ctg : List ℝ) (i : ℕ),
        contCostToGo solve S x0 T cost goal = .ok (total, xs, ctg) ∧ xs[i]? = some x ∧ ctg[i]? = some c := by
  have hrun : ∀ x0 ∈ x0s, contSim solve S T cost goal x0 ≠ .error .assertion := by
    intro x0 h0 h
    unfold contSim contCostToGo at h
    rw [if_pos ⟨hT, hx x0 h0⟩] at h
    cases e : solve (ivpFun S cost) T (x0 ++ [0]) (goal.map goalEvent) with
    | ok sol => rw [e] at h; cases h
    | error er =>
      rw [e] at h
      cases er with
      | assertion => exact hs _ _ _ e
      | stepForward => cases h
  have hl : ∀ x0s' : List (Vec ℝ), (∀ x0 ∈ x0s', x0 ∈ x0s) → sampleLoop (contSim solve S T cost goal) pruner x0s' =
      .ok (x0s'.flatMap fun x0 => match contSim solve S T cost goal x0 with
        | .ok ps => kept pruner ps
        | .error _ => []) := by
    intro x0s'
    induction x0s' with
    | nil => intro _; rfl
    | cons x0 l ih =>
      intro hsub
      have ih' := ih fun a ha => hsub a (List.mem_cons_of_mem _ ha)
      unfold sampleLoop
      cases h : contSim solve S T cost goal x0 with
      | ok ps => simp [ih', h, kept_pruned]
      | error e =>
        cases e with
        | assertion => exact absurd h (hrun x0 (hsub x0 List.mem_cons_self))
        | stepForward => simp [ih', h]
  refine ⟨_, hl x0s (fun _ h => h), fun x c => ?_⟩
  have hk : ∀ ps : List (Vec ℝ × ℝ), (x, c) ∈ kept pruner ps ↔
      (x, c) ∈ ps ∧ ∀ f, pruner = some f → f x = false := by
    intro ps
    cases pruner with
    | none => simp [kept]
    | some f => simp [kept, List.mem_filter]
  have hz : ∀ (xs : List (Vec ℝ)) (ctg : List ℝ), (x, c) ∈ xs.zip ctg ↔
      ∃ i : ℕ, xs[i]? = some x ∧ ctg[i]? = some c := by
    intro xs ctg
    rw [List.mem_iff_getElem?]
    simp only [List.getElem?_zip_eq_some]
  simp only [List.mem_flatMap]
  constructor
  · rintro ⟨x0, h0, h1⟩
    unfold contSim at h1
    cases e : contCostToGo solve S x0 T cost goal with
    | error er => simp [e] at h1
    | ok r =>
      simp only [e] at h1
      obtain ⟨h2, h3⟩ := (hk _).1 h1
      obtain ⟨i, h4, h5⟩ := (hz _ _).1 h2
      exact ⟨h3, x0, h0, r.1, r.2.1, r.2.2, i, e, h4, h5⟩
  · rintro ⟨h3, x0, h0, total, xs, ctg, i, e, h4, h5⟩
    refine ⟨x0, h0, ?_⟩
    unfold contSim
    simp only [e]
    exact (hk _).2 ⟨(hz _ _).2 ⟨i, h4, h5⟩, h3⟩

/-! ### A concrete case -/

/-- `ẋ = 1` on the whole line. -/
noncomputable def exDrift : AutoHybrid ℝ := { xdim := 1, modes := [⟨[[0]], [1], [], []⟩] }

open Classical in
/-- An exact integrator: it returns some exact solution when there is one. -/
noncomputable def exactSolver : IvpSolver := fun f T y0 ev =>
  if h : ∃ sol y te, IvpOk 0 f T y0 ev sol y te then .ok h.choose else .error .stepForward

theorem exactSolver_ok (T : ℝ) : ∀ f y0 ev sol, exactSolver f T y0 ev = .ok sol →
    ∃ y te, IvpOk 0 f T y0 ev sol y te := by
  intro f y0 ev sol h
  unfold exactSolver at h
  split at h
  · rename_i hex
    cases h
    exact hex.choose_spec
  · cases h

/-- The hypotheses of C109 are met: from `0` the system drifts to `2` and pays `∫ x = 2`. -/
example : ∃ xs ctg, contCostToGo exactSolver exDrift [0] 2 (fun x => x.sum) none = .ok (2, xs, ctg) := by
  have hex : ∃ sol y te, IvpOk 0 (ivpFun exDrift fun x => x.sum) 2 ([0] ++ [0]) none sol y te := by
    have hd : ∀ t : ℝ, ivpFun exDrift (fun x => x.sum) [t, t ^ 2 / 2] = some [1, t] := by
      intro t
      simp [ivpFun, exDrift, firstSucc, firstIdx, polyHas, matVec, vadd]
    refine ⟨[(0, [0, 0]), (2, [2, 2])], fun t => [t, t ^ 2 / 2], 2, by simp, by simp, by simp, ?_, le_rfl,
      Or.inl rfl, by norm_num, ?_, fun t => [1, t], fun t _ _ => ⟨rfl, hd t⟩, ?_⟩
    · intro p hp
      simp only [List.mem_cons, List.not_mem_nil, or_false] at hp
      rcases hp with rfl | rfl <;> norm_num
    · intro p hp
      simp only [List.mem_cons, List.not_mem_nil, or_false] at hp
      rcases hp with rfl | rfl <;> refine ⟨rfl, fun j => ?_⟩ <;> norm_num
    · intro j hj
      have : j < 2 := hj
      interval_cases j
      · refine ⟨by simp, fun t _ _ => by simp⟩
      · refine ⟨by simp [intervalIntegral.intervalIntegrable_id], fun t _ _ => by simp [integral_id]⟩
  obtain ⟨sol, hsol⟩ : ∃ sol, exactSolver (ivpFun exDrift fun x => x.sum) 2 ([0] ++ [0]) none = .ok sol := by
    unfold exactSolver
    rw [dif_pos hex]
    exact ⟨_, rfl⟩
  have hok : ∃ r, contCostToGo exactSolver exDrift [0] 2 (fun x => x.sum) none = .ok r := by
    unfold contCostToGo
    rw [if_pos ⟨by norm_num, rfl⟩]
    simp only [Option.map_none]
    rw [hsol]
    exact ⟨_, rfl⟩
  obtain ⟨⟨total, xs, ctg⟩, hr⟩ := hok
  obtain ⟨x, te, ts, h0, hte, -, hF, hst, -, -, -, -, -, htot, -⟩ := C109_cost_to_go exactSolver exDrift [0] 2 0
    le_rfl _ none total xs ctg (by simp [exDrift]) (exactSolver_ok 2) hr
  obtain rfl : te = 2 := by
    rcases hst with h | ⟨g, h, -⟩
    · exact h
    · cases h
  have hx : ∀ t, 0 ≤ t → t ≤ 2 → (x t).sum = t := by
    obtain ⟨d, hd, hj⟩ := hF
    intro t t0 t1
    obtain ⟨-, he⟩ := hj 0 (by simp [exDrift])
    have e := he t t0 t1
    rw [h0, intervalIntegral.integral_congr (g := fun _ => (1 : ℝ))] at e
    · obtain ⟨hl, -⟩ := hd t t0 t1
      obtain ⟨a, ha⟩ := List.length_eq_one_iff.1 hl
      rw [ha] at e ⊢
      simpa using e
    · intro τ hτ
      rw [Set.uIcc_of_le t0] at hτ
      obtain ⟨-, md, hm, -, e2⟩ := hd τ hτ.1 (by linarith [hτ.2])
      simp only [exDrift, List.mem_singleton] at hm
      subst hm
      simp [e2, matVec, vadd, dot]
      cases x τ <;> simp
  have : total = 2 := by
    rw [intervalIntegral.integral_congr (g := fun t => t)] at htot
    · rw [integral_id] at htot
      have := abs_nonpos_iff.1 htot
      linarith
    · intro t ht
      rw [Set.uIcc_of_le hte] at ht
      exact hx t ht.1 ht.2
  rw [this] at hr
  exact ⟨xs, ctg, hr⟩

end NNL.Props
