import Verif.Model.ValueFit
import Verif.Props.ContCostToGo
import Verif.Props.Descent
import Verif.Props.Losses

/-!
C128: fitting a network to the simulated cost-to-go; C38 for `lyapunov_derivative_loss_at_samples`.
-/

set_option linter.unusedSectionVars false

namespace NNL.Props

open NNL NNL.Model NNL.Spec MeasureTheory

variable {K : Type} [Field K] [LinearOrder K] [IsStrictOrderedRing K] {W : Type}

/-! ### C38 -/

theorem mapM_step_zip {step : Vec K → Option (Vec K)} : ∀ {xs xn : List (Vec K)}, xs.mapM step = some xn →
    ∀ (Q : Vec K → Vec K → Prop), (∀ p ∈ xs.zip xn, Q p.1 p.2) ↔ ∀ x ∈ xs, ∃ y, step x = some y ∧ Q x y
  | [], xn, h, Q => by simp
  | x :: xs, xn, h, Q => by
    rw [List.mapM_cons] at h
    simp only [Option.bind_eq_bind, Option.bind_eq_some_iff] at h
    obtain ⟨y, hy, ys, hys, he⟩ := h
    cases he
    have := mapM_step_zip hys Q
    simp only [List.zip_cons_cons, List.mem_cons, forall_eq_or_imp, hy, Option.some.injEq, exists_eq_left']
    exact and_congr Iff.rfl this

/-- **C38**, `lyapunov_derivative_loss_at_samples`: the loss is zero exactly if the derivative condition, with the
margin, holds from every sampled state to the state that follows it. -/
theorem C38_derivative_at (L : Lyap K) (step : Vec K → Option (Vec K)) (xs : List (Vec K)) (xe : Vec K)
    (lam eps : K) (et : EpsType) {R : Option (Tensor2 K)} {R' : Mat K} (hR : getR R L.dim = some R') (margin : K)
    (red : Reduction) (weight : Option (Vec K)) (hw : WeightsPos weight) (r : K)
    (h : L.DerivativeLossAt step xs xe lam eps et R margin red weight r) :
    0 ≤ r ∧ (r = 0 ↔ ∀ x ∈ xs, ∃ y, step x = some y ∧
      decrease et eps (lyapV L.net R' lam xe y) (lyapV L.net R' lam xe x) (err R' xe x) + margin ≤ 0) := by
  obtain ⟨-, xn, hn, h⟩ := h
  obtain ⟨h1, h2⟩ := C38_derivative L xs xn xe lam eps et hR margin red weight hw r h
  exact ⟨h1, h2.trans (mapM_step_zip hn fun x y => decrease et eps (lyapV L.net R' lam xe y)
    (lyapV L.net R' lam xe x) (err R' xe x) + margin ≤ 0)⟩

/-- **C38**: the loss at samples raises if the system cannot step from one of them. -/
theorem C38_derivative_at_raises (L : Lyap K) (step : Vec K → Option (Vec K)) (xs : List (Vec K)) (xe : Vec K)
    (lam eps : K) (et : EpsType) (R : Option (Tensor2 K)) (margin : K) (red : Reduction) (weight : Option (Vec K))
    (x : Vec K) (hx : x ∈ xs) (hs : step x = none) (r : K) :
    ¬ L.DerivativeLossAt step xs xe lam eps et R margin red weight r := by
  rintro ⟨-, xn, hn, -⟩
  clear * - hn hx hs
  induction xs generalizing xn with
  | nil => cases hx
  | cons y ys ih =>
    rw [List.mapM_cons] at hn
    simp only [Option.bind_eq_bind, Option.bind_eq_some_iff] at hn
    obtain ⟨z, hz, zs, hzs, -⟩ := hn
    rcases List.mem_cons.1 hx with rfl | h
    · rw [hs] at hz; cases hz
    · exact ih h _ hzs

/-! ### C128 -/

theorem fitLoss_eq (net : Net K) (R : Mat K) (lam : K) (xe : Vec K) (ps : List (Vec K × K)) :
    fitLoss net R lam xe ps = (ps.map fun p => (lyapV net R lam xe p.1 - p.2) ^ 2).sum / ps.length := by
  simp [fitLoss, vmean, lyapV, err, Net.val, l1err, norm1]

theorem sq_le_of_fitLoss {net : Net K} {R : Mat K} {lam : K} {xe : Vec K} {ps : List (Vec K × K)} {b : K}
    (h : fitLoss net R lam xe ps ≤ b) {p : Vec K × K} (hp : p ∈ ps) :
    (lyapV net R lam xe p.1 - p.2) ^ 2 ≤ ps.length * b := by
  rw [fitLoss_eq] at h
  have h0 : (0 : K) < ps.length := by exact_mod_cast List.length_pos_of_mem hp
  have h1 : (lyapV net R lam xe p.1 - p.2) ^ 2 ≤ (ps.map fun p => (lyapV net R lam xe p.1 - p.2) ^ 2).sum := by
    apply List.single_le_sum
    · intro a ha
      obtain ⟨q, -, rfl⟩ := List.mem_map.1 ha
      positivity
    · exact List.mem_map.2 ⟨p, hp, rfl⟩
  rw [div_le_iff₀ h0] at h
  linarith [mul_comm b (ps.length : K)]

theorem fitSamples_some {net : W → Net K} {adam : (W → K) → W → W} {ps : List (Vec K × K)} {lam : K}
    {xe : Vec K} {R : Option (Tensor2 K)} {tol : K} {epochs : ℕ} {w : W} {r : Bool × K × W}
    (h : fitSamples net adam ps lam xe R tol epochs w = some r) :
    ∃ R', getR R xe.length = some R' ∧ ps ≠ [] ∧
      trainValue (fun w => fitLoss (net w) R' lam xe ps) (adam fun w => fitLoss (net w) R' lam xe ps) tol epochs w
        = some r := by
  unfold fitSamples at h
  split at h
  · cases h
  · rename_i R' hR
    split_ifs at h with hp
    exact ⟨R', hR, hp, h⟩

theorem discrete_members (S : AutoHybrid K) (N : ℕ) (cost : Vec K → K) (goal : Option (Vec K))
    (pruner : Option (Vec K → Bool)) (x0s : List (Vec K)) (l : List (Vec K × K))
    (hS : ∀ md ∈ S.modes, md.toH.Ok S.xdim 0)
    (h : discreteSamples S x0s N cost goal pruner = .ok l) :
    l.length ≤ x0s.length * (N + 1) ∧
    ∀ x0 ∈ x0s, ∃ xs, Sim S goal x0 xs ∧ xs.length ≤ N + 1 ∧
      (xs.length = N + 1 ∨ nearGoal goal (xs.getLastD []) = true) ∧
      ∀ i, i < xs.length → (∀ f, pruner = some f → f (xs.getD i []) = false) →
        (xs.getD i [], ((xs.drop i).map cost).sum) ∈ l := by
  obtain ⟨h1, rfl⟩ := (C64_all_partial S N cost goal pruner x0s l).1 h
  clear h
  have hone : ∀ x0 ∈ x0s, ∃ r, costToGo S x0 N cost goal = some r := fun x0 h0 =>
    Option.isSome_iff_exists.1 (h1 x0 h0)
  have hlen : ∀ ps : List (Vec K × K), (kept pruner ps).length ≤ ps.length := by
    intro ps
    cases pruner with
    | none => exact le_rfl
    | some f => exact List.length_filter_le _ _
  constructor
  · clear h1
    induction x0s with
    | nil => simp
    | cons x0 l ih =>
      obtain ⟨⟨total, xs, cs⟩, hr⟩ := hone x0 List.mem_cons_self
      have := ih fun a ha => hone a (List.mem_cons_of_mem _ ha)
      simp only [List.flatMap_cons, List.length_append, List.length_cons, hr]
      obtain ⟨-, hN, -, hc, -⟩ := C45_suffix_sums hS hr
      have e := hlen (xs.zip cs)
      rw [List.length_zip] at e
      have : (kept pruner (xs.zip cs)).length ≤ N + 1 := by omega
      linarith
  · intro x0 h0
    obtain ⟨⟨total, xs, cs⟩, hr⟩ := hone x0 h0
    obtain ⟨hs, hN, hstop, hc, hsum, -⟩ := C45_suffix_sums hS hr
    refine ⟨xs, hs, hN, hstop, fun i hi hk => List.mem_flatMap.2 ⟨x0, h0, ?_⟩⟩
    simp only [hr]
    have hm : (xs.getD i [], ((xs.drop i).map cost).sum) ∈ xs.zip cs := by
      rw [← hsum i hi]
      refine List.mem_iff_getElem?.2 ⟨i, ?_⟩
      rw [List.getElem?_zip_eq_some]
      have hi' : i < cs.length := by omega
      simp [List.getD, hi, hi']
    cases hp : pruner with
    | none => exact hm
    | some f => exact List.mem_filter.2 ⟨hm, by simpa using hk f hp⟩

/-- **C128**, discrete time. If `train` returns `True`, then the loss it returns is at most the tolerance and, from
every sampled initial state, the candidate function of the trained network is within
`√(samples · (horizon + 1) · tolerance)` of the cost of the rest of the simulation, at every state of the
simulation that was not pruned. -/
theorem C128_converged (net : W → Net K) (adam : (W → K) → W → W) (S : AutoHybrid K) (lam : K) (xe : Vec K)
    (cost : Vec K → K) (x0s : List (Vec K)) (N : ℕ) (R : Option (Tensor2 K)) (goal : Option (Vec K))
    (pruner : Option (Vec K → Bool)) (tol : K) (epochs : ℕ) (w w' : W) (l : K)
    (hS : ∀ md ∈ S.modes, md.toH.Ok S.xdim 0)
    (h : fitDiscrete net adam S lam xe cost x0s N R goal pruner tol epochs w = some (true, l, w')) :
    ∃ R', getR R S.xdim = some R' ∧ 0 ≤ l ∧ l ≤ tol ∧
      ∀ x0 ∈ x0s, ∃ xs, Sim S goal x0 xs ∧
        (xs.length = N + 1 ∨ xs.length ≤ N ∧ nearGoal goal (xs.getLastD []) = true) ∧
        ∀ i, i < xs.length → (∀ f, pruner = some f → f (xs.getD i []) = false) →
          (lyapV (net w') R' lam xe (xs.getD i []) - ((xs.drop i).map cost).sum) ^ 2 ≤
            x0s.length * (N + 1) * tol := by
  unfold fitDiscrete at h
  split_ifs at h with hx
  split at h
  · cases h
  rename_i ps hps
  obtain ⟨R', hR, hne, ht⟩ := fitSamples_some h
  obtain ⟨-, h2⟩ := C69_value_true _ _ _ _ _ _ _ _ ht
  obtain ⟨h3, h4, -⟩ := h2 rfl
  have h5 : fitLoss (net w') R' lam xe ps ≤ tol := h3 ▸ h4
  have h0 : 0 ≤ l := by
    rw [h3]
    simp only [fitLoss_eq]
    refine div_nonneg (List.sum_nonneg fun a ha => ?_) (Nat.cast_nonneg _)
    obtain ⟨q, -, rfl⟩ := List.mem_map.1 ha
    positivity
  obtain ⟨hlen, hmem⟩ := discrete_members S N cost goal pruner x0s ps hS hps
  refine ⟨R', hx ▸ hR, h0, h4, fun x0 hx0 => ?_⟩
  obtain ⟨xs, hs, hN, hstop, hall⟩ := hmem x0 hx0
  refine ⟨xs, hs, ?_, fun i hi hk => (sq_le_of_fitLoss h5 (hall i hi hk)).trans ?_⟩
  · rcases Nat.lt_or_ge xs.length (N + 1) with q | q
    · exact Or.inr ⟨by omega, hstop.resolve_left (by omega)⟩
    · exact Or.inl (by omega)
  · refine mul_le_mul_of_nonneg_right ?_ (h0.trans h4)
    exact_mod_cast hlen

/-- **C128**: hence the candidate function decreases along the simulations, by the cost of the step up to twice
the bound on the error. -/
theorem C128_decrease (net : W → Net K) (adam : (W → K) → W → W) (S : AutoHybrid K) (lam : K) (xe : Vec K)
    (cost : Vec K → K) (x0s : List (Vec K)) (N : ℕ) (R : Option (Tensor2 K)) (goal : Option (Vec K))
    (tol : K) (epochs : ℕ) (w w' : W) (l s : K)
    (hS : ∀ md ∈ S.modes, md.toH.Ok S.xdim 0) (hs0 : 0 ≤ s) (hs : x0s.length * (N + 1) * tol ≤ s ^ 2)
    (h : fitDiscrete net adam S lam xe cost x0s N R goal none tol epochs w = some (true, l, w')) :
    ∃ R', getR R S.xdim = some R' ∧ ∀ x0 ∈ x0s, ∃ xs, Sim S goal x0 xs ∧
      (xs.length = N + 1 ∨ xs.length ≤ N ∧ nearGoal goal (xs.getLastD []) = true) ∧
      ∀ i, i + 1 < xs.length →
        lyapV (net w') R' lam xe (xs.getD (i + 1) []) ≤
          lyapV (net w') R' lam xe (xs.getD i []) - cost (xs.getD i []) + 2 * s := by
  obtain ⟨R', hR, -, -, hall⟩ := C128_converged net adam S lam xe cost x0s N R goal none tol epochs w w' l hS h
  refine ⟨R', hR, fun x0 hx0 => ?_⟩
  obtain ⟨xs, a, b, c⟩ := hall x0 hx0
  refine ⟨xs, a, b, fun i hi => ?_⟩
  have h1 := (abs_le_of_sq_le_sq' ((c i (by omega) (by simp)).trans hs) hs0)
  have h2 := (abs_le_of_sq_le_sq' ((c (i + 1) hi (by simp)).trans hs) hs0)
  have e : ((xs.drop i).map cost).sum = cost (xs.getD i []) + ((xs.drop (i + 1)).map cost).sum := by
    rw [List.drop_eq_getElem_cons (by omega : i < xs.length)]
    simp [List.getD, show i < xs.length by omega]
  linarith [h1.1, h1.2, h2.1, h2.2]

/-- **C128**: `train` returns `False` only after `max_epochs` steps with the loss above the tolerance at each. -/
theorem C128_not_converged (net : W → Net K) (adam : (W → K) → W → W) (S : AutoHybrid K) (lam : K) (xe : Vec K)
    (cost : Vec K → K) (x0s : List (Vec K)) (N : ℕ) (R : Option (Tensor2 K)) (goal : Option (Vec K))
    (pruner : Option (Vec K → Bool)) (tol : K) (epochs : ℕ) (w w' : W) (l : K)
    (h : fitDiscrete net adam S lam xe cost x0s N R goal pruner tol epochs w = some (false, l, w')) :
    ∃ R' ps, getR R S.xdim = some R' ∧ discreteSamples S x0s N cost goal pruner = .ok ps ∧ ps ≠ [] ∧
      (∀ v, fitLoss (net v) R' lam xe ps ≤ tol →
        ∀ k < epochs, v ≠ (adam fun u => fitLoss (net u) R' lam xe ps)^[k] w) ∧
      w' = (adam fun u => fitLoss (net u) R' lam xe ps)^[epochs] w ∧ tol < l := by
  unfold fitDiscrete at h
  split_ifs at h with hx
  split at h
  · cases h
  rename_i ps hps
  obtain ⟨R', hR, hne, ht⟩ := fitSamples_some h
  obtain ⟨h1, h2, -⟩ := C69_value_false _ _ _ _ _ _ _ ht
  obtain ⟨h3, -⟩ := C69_value_true _ _ _ _ _ _ _ _ ht
  refine ⟨R', ps, hx ▸ hR, hps, hne, fun v hv k hk e => ?_, h1, h2⟩
  exact Bool.false_ne_true (h3.2 ⟨k, hk, e ▸ hv⟩)

/-- **C128**: `train` raises exactly if `R` has the wrong shape, one of the simulations fails, every state is
pruned (or there is no sample), or `max_epochs` is 0. -/
theorem C128_raises (net : W → Net K) (adam : (W → K) → W → W) (S : AutoHybrid K) (lam : K) (xe : Vec K)
    (cost : Vec K → K) (x0s : List (Vec K)) (N : ℕ) (R : Option (Tensor2 K)) (goal : Option (Vec K))
    (pruner : Option (Vec K → Bool)) (tol : K) (epochs : ℕ) (w : W) (hxe : xe.length = S.xdim)
    (hS : ∀ md ∈ S.modes, md.toH.Ok S.xdim 0) :
    fitDiscrete net adam S lam xe cost x0s N R goal pruner tol epochs w = none ↔
      (∃ Rt, R = some Rt ∧ Rt.cols ≠ S.xdim) ∨ (∃ x0 ∈ x0s, costToGo S x0 N cost goal = none) ∨
      (∀ x0 ∈ x0s, ∀ total xs costs, costToGo S x0 N cost goal = some (total, xs, costs) →
        ∃ f, pruner = some f ∧ ∀ x ∈ xs, f x = true) ∨ epochs = 0 := by
  have hg : getR R xe.length = none ↔ ∃ Rt, R = some Rt ∧ Rt.cols ≠ S.xdim := by
    rw [hxe]
    cases R with
    | none => simp [getR]
    | some Rt => simp [getR]
  have hk : ∀ (xs : List (Vec K)) (cs : List K), xs ≠ [] → cs.length = xs.length →
      (kept pruner (xs.zip cs) = [] ↔ ∃ f, pruner = some f ∧ ∀ x ∈ xs, f x = true) := by
    intro xs cs hx hc
    cases pruner with
    | none =>
      simp only [kept, reduceCtorEq, false_and, exists_false, iff_false, List.zip_eq_nil_iff, hx, false_or]
      rintro rfl
      exact hx (List.length_eq_zero_iff.1 hc.symm)
    | some f =>
      simp only [kept, List.filter_eq_nil_iff, decide_eq_true_eq, Bool.not_eq_false, Option.some.injEq,
        exists_eq_left']
      constructor
      · intro h x hx
        rw [← List.map_fst_zip (l₁ := xs) (l₂ := cs) hc.ge] at hx
        obtain ⟨p, hp, rfl⟩ := List.mem_map.1 hx
        exact h p hp
      · intro h p hp
        exact h _ (List.of_mem_zip hp).1
  unfold fitDiscrete
  rw [if_pos hxe]
  cases hd : discreteSamples S x0s N cost goal pruner with
  | error e =>
    have : ∃ x0 ∈ x0s, costToGo S x0 N cost goal = none := by
      by_contra hc
      have h2 := (C64_all_partial S N cost goal pruner x0s _).2 ⟨fun x0 h0 => by
        rw [Option.isSome_iff_ne_none]
        exact fun q => hc ⟨x0, h0, q⟩, rfl⟩
      rw [hd] at h2
      cases h2
    simp [this]
  | ok ps =>
    obtain ⟨h1, rfl⟩ := (C64_all_partial S N cost goal pruner x0s ps).1 hd
    have h2 : ¬ ∃ x0 ∈ x0s, costToGo S x0 N cost goal = none := by
      rintro ⟨x0, h0, h⟩
      have := h1 x0 h0
      rw [h] at this
      cases this
    have h3 : (x0s.flatMap fun x0 => match costToGo S x0 N cost goal with
        | some r => kept pruner (r.2.1.zip r.2.2)
        | none => []) = [] ↔ ∀ x0 ∈ x0s, ∀ total xs costs, costToGo S x0 N cost goal = some (total, xs, costs) →
        ∃ f, pruner = some f ∧ ∀ x ∈ xs, f x = true := by
      rw [List.flatMap_eq_nil_iff]
      refine forall₂_congr fun x0 h0 => ?_
      obtain ⟨⟨total, xs, cs⟩, hr⟩ := Option.isSome_iff_exists.1 (h1 x0 h0)
      obtain ⟨hs, -, -, hc, -⟩ := C45_suffix_sums hS hr
      have hne : xs ≠ [] := by
        rintro rfl
        have := hs.start
        simp at this
      simp only [hr, hk xs cs hne hc, Option.some.injEq, Prod.mk.injEq]
      constructor
      · rintro h _ _ _ ⟨rfl, rfl, rfl⟩
        exact h
      · intro h
        exact h _ _ _ ⟨rfl, rfl, rfl⟩
    rw [← h3, ← hg, or_iff_right h2]
    unfold fitSamples
    cases hR : getR R xe.length with
    | none => simp
    | some R' =>
      simp only [reduceCtorEq, false_or]
      split_ifs with hp
      · exact ⟨fun _ => Or.inl hp, fun _ => rfl⟩
      · rw [C69_value_raises]
        exact ⟨Or.inr, fun h => h.resolve_left hp⟩

/-- **C128**: two samples of the same state with different costs (a state that is reached at two distances from
the end of the simulations) bound the loss from below, whatever the network. -/
theorem C128_conflict (net : Net K) (R : Mat K) (lam : K) (xe x : Vec K) (c c' : K) (ps : List (Vec K × K))
    (h : [(x, c), (x, c')].Sublist ps) : (c - c') ^ 2 / (2 * ps.length) ≤ fitLoss net R lam xe ps := by
  have h0 : (0 : K) < ps.length := by
    have := h.length_le
    simp only [List.length_cons, List.length_nil] at this
    exact_mod_cast (by omega : 0 < ps.length)
  rw [fitLoss_eq]
  have hs := (h.map fun p => (lyapV net R lam xe p.1 - p.2) ^ 2)
  have h1 : ([(x, c), (x, c')].map fun p => (lyapV net R lam xe p.1 - p.2) ^ 2).sum ≤
      (ps.map fun p => (lyapV net R lam xe p.1 - p.2) ^ 2).sum := by
    refine hs.sum_le_sum fun a ha => ?_
    obtain ⟨q, -, rfl⟩ := List.mem_map.1 ha
    positivity
  simp only [List.map_cons, List.map_nil, List.sum_cons, List.sum_nil, add_zero] at h1
  rw [div_le_div_iff₀ (by positivity) h0]
  nlinarith [sq_nonneg (2 * lyapV net R lam xe x - c - c')]

/-- The number of states of all the simulations. -/
noncomputable def contStates (solve : IvpSolver) (S : AutoHybrid ℝ) (T : ℝ) (cost : Vec ℝ → ℝ)
    (goal : Option (Vec ℝ)) (x0s : List (Vec ℝ)) : ℕ :=
  (x0s.map fun x0 => match contCostToGo solve S x0 T cost goal with
    | .ok r => r.2.1.length
    | .error _ => 0).sum

theorem contSamples_length (solve : IvpSolver) (S : AutoHybrid ℝ) (T : ℝ) (cost : Vec ℝ → ℝ)
    (goal : Option (Vec ℝ)) (pruner : Option (Vec ℝ → Bool)) : ∀ (x0s : List (Vec ℝ)) (l : List (Vec ℝ × ℝ)),
    contSamples solve S x0s T cost goal pruner = .ok l → l.length ≤ contStates solve S T cost goal x0s
  | [], l, h => by
    simp only [contSamples, sampleLoop, Except.ok.injEq] at h
    simp [← h]
  | x0 :: x0s, l, h => by
    unfold contSamples sampleLoop at h
    have ih := contSamples_length solve S T cost goal pruner x0s
    unfold contSamples at ih
    unfold contStates at ih ⊢
    rw [List.map_cons, List.sum_cons]
    cases hc : contCostToGo solve S x0 T cost goal with
    | error e =>
      simp only [contSim, hc] at h
      cases e with
      | assertion => cases h
      | stepForward => simpa using ih l h
    | ok r =>
      have hsim : contSim solve S T cost goal x0 = .ok (r.2.1.zip r.2.2) := by simp [contSim, hc]
      rw [hsim] at h
      simp only at h
      cases hl : sampleLoop (contSim solve S T cost goal) pruner x0s with
      | error e => rw [hl] at h; cases h
      | ok l' =>
        have := ih l' hl
        rw [hl] at h
        simp only [Except.ok.injEq] at h
        rw [← h, List.length_append]
        have h2 := List.length_filter_le (keepPair pruner) (r.2.1.zip r.2.2)
        rw [List.length_zip] at h2
        show _ ≤ r.2.1.length + _
        omega

/-- **C128**, continuous time. If `train` returns `True`, then at every state kept from a simulation the candidate
function of the trained network is close to the integral of the cost along the exact solution that the integrator
(with error `δ`) follows: within the square root of `n · tolerance`, plus `2 δ`, where `n` is the number of states of all the
simulations. -/
theorem C128_continuous (solve : IvpSolver) (net : W → Net ℝ) (adam : (W → ℝ) → W → W) (S : AutoHybrid ℝ)
    (lam : ℝ) (xe : Vec ℝ) (cost : Vec ℝ → ℝ) (x0s : List (Vec ℝ)) (T δ : ℝ) (R : Option (Tensor2 ℝ))
    (goal : Option (Vec ℝ)) (pruner : Option (Vec ℝ → Bool)) (tol : ℝ) (epochs : ℕ) (w w' : W) (l : ℝ)
    (hδ : 0 ≤ δ) (hT : 0 ≤ T) (hx : ∀ x0 ∈ x0s, x0.length = S.xdim)
    (hS : ∀ md ∈ S.modes, md.A.length = S.xdim ∧ md.g.length = S.xdim)
    (hsolve : ∀ f y0 ev sol, solve f T y0 ev = .ok sol → ∃ y te, IvpOk δ f T y0 ev sol y te)
    (hs : ∀ f y0 ev, solve f T y0 ev ≠ .error .assertion)
    (h : fitCont solve net adam S lam xe cost x0s T R goal pruner tol epochs w = some (true, l, w')) :
    ∃ R' : Mat ℝ, getR R S.xdim = some R' ∧ l ≤ tol ∧
      ∀ x0 ∈ x0s, ∀ total xs ctg, contCostToGo solve S x0 T cost goal = .ok (total, xs, ctg) →
        ∃ (x : ℝ → Vec ℝ) (te : ℝ) (ts : List ℝ), x 0 = x0 ∧ 0 ≤ te ∧ te ≤ T ∧ Follows S te x ∧
          ts.length = xs.length ∧
          ∀ (i : ℕ) xi t, xs[i]? = some xi → ts[i]? = some t → (∀ f, pruner = some f → f xi = false) →
            Close δ xi (x t) ∧
            |lyapV (net w') R' lam xe xi - ∫ τ in (0 : ℝ)..(te - t), cost (x (t + τ))| ≤
              Real.sqrt (contStates solve S T cost goal x0s * tol) + 2 * δ := by
  unfold fitCont at h
  split_ifs at h with hxe
  obtain ⟨ps, hps, hmem⟩ := C109_samples solve S x0s T cost goal pruner hT hx hs
  rw [hps] at h
  simp only at h
  obtain ⟨R', hR, hne, ht⟩ := fitSamples_some h
  obtain ⟨-, h2⟩ := C69_value_true _ _ _ _ _ _ _ _ ht
  obtain ⟨h3, h4, -⟩ := h2 rfl
  have h5 : fitLoss (net w') R' lam xe ps ≤ tol := h3 ▸ h4
  have htol : 0 ≤ tol := by
    refine le_trans ?_ h5
    rw [fitLoss_eq]
    refine div_nonneg (List.sum_nonneg fun a ha => ?_) (Nat.cast_nonneg _)
    obtain ⟨q, -, rfl⟩ := List.mem_map.1 ha
    positivity
  refine ⟨R', hxe ▸ hR, h4, fun x0 h0 total xs ctg hc => ?_⟩
  obtain ⟨x, te, ts, a1, a2, a3, a4, -, -, -, a5, a6, -, -, a7⟩ :=
    C109_cost_to_go solve S x0 T δ hδ cost goal total xs ctg hS hsolve hc
  refine ⟨x, te, ts, a1, a2, a3, a4, a5.symm, fun i xi t hi hti hk => ?_⟩
  obtain ⟨-, -, xi', c, b1, b2, b3, -, b4, -⟩ := a7 i t hti
  cases hi.symm.trans b1
  have hin : (xi, c) ∈ ps := (hmem xi c).2 ⟨hk, x0, h0, total, xs, ctg, i, hc, hi, b2⟩
  have h6 := Real.abs_le_sqrt ((sq_le_of_fitLoss h5 hin).trans (mul_le_mul_of_nonneg_right
    (Nat.cast_le.2 (contSamples_length solve S T cost goal pruner x0s ps hps)) htol))
  refine ⟨b3, ?_⟩
  calc _ = |(lyapV (net w') R' lam xe xi - c) + (c - ∫ τ in (0 : ℝ)..(te - t), cost (x (t + τ)))| := by
        congr 1; ring
    _ ≤ _ := (abs_add_le _ _).trans (add_le_add h6 b4)

/-! ### Concrete cases -/

/-- `x⁺ = x / 2` on the line. -/
def exHalf : AutoHybrid ℚ := { xdim := 1, modes := [⟨[[1 / 2]], [0], [], []⟩] }

/-- The network `x ↦ w x`. -/
def exLine (w : ℚ) : Net ℚ := ⟨[], ⟨1, [[w]], some [0]⟩⟩

/-- An optimizer that adds `1/2` to the weight. -/
def exAdam (_ : ℚ → ℚ) (w : ℚ) : ℚ := w + 1 / 2

/-- C128: training from the weight 0 converges at the third epoch; the state `1` is pruned. -/
example : fitDiscrete exLine exAdam exHalf (1 / 2) [0] (fun x => x.sum) [[1], [2]] 2 none (some [1 / 4])
    (some fun x => decide (x = [1])) (1 / 10) 5 0 = some (true, 21 / 256, 1) := by decide +kernel

/-- C128: one epoch fewer is not enough. -/
example : fitDiscrete exLine exAdam exHalf (1 / 2) [0] (fun x => x.sum) [[1], [2]] 2 none (some [1 / 4])
    none (1 / 10) 2 0 = some (false, 25 / 48, 1) := by decide +kernel

/-- C128: everything is pruned. -/
example : fitDiscrete exLine exAdam exHalf (1 / 2) [0] (fun x => x.sum) [[1], [2]] 2 none (some [1 / 4])
    (some fun _ => true) (1 / 10) 5 0 = none := by decide +kernel

example : ∀ md ∈ exHalf.modes, md.toH.Ok exHalf.xdim 0 := by decide

/-- `x⁺ = x` on the line. -/
def exStay : AutoHybrid ℚ := { xdim := 1, modes := [⟨[[1]], [0], [], []⟩] }

/-- C128: at a state that does not move, the costs of one simulation contradict each other. -/
example : discreteSamples exStay [[1]] 1 (fun x => x.sum) none none = .ok [([1], 2), ([1], 1)] := by
  have h : costToGo exStay [1] 1 (fun x => x.sum) none = some (2, [[1], [1]], [2, 1]) := by decide +kernel
  simp [discreteSamples, sampleLoop, discreteSim, h, keepPair]

/-- C38: the hypothesis of `C38_derivative_at` is met by the halving system at two samples. -/
example : (⟨[-1], [1], exLine 1, .ia⟩ : Lyap ℚ).DerivativeLossAt exHalf.stepForward [[1], [1 / 2]] [0] 1 (1 / 4)
    .expLower none 0 .mean none 0 := by
  refine ⟨by decide, [[1 / 2], [1 / 4]], by decide +kernel, _, rfl, ?_⟩
  refine ⟨by decide +kernel, by decide +kernel⟩

end NNL.Props
