import Verif.Props.Adversarial

/-!
# Further theorems about C56, C65, C72 and C73

The parts of the training loops which the earlier theorems leave open.
-/

set_option linter.unusedSectionVars false

namespace NNL.Props

open NNL NNL.Spec NNL.Model

variable {K : Type} [Field K] [LinearOrder K] [IsStrictOrderedRing K] {W : Type}

/-! ### C65: the mode which is read off the binaries -/

/-- C65: the mode is the first entry above `0.99`; without one the call raises. -/
theorem C65_active_mode (gamma : Vec K) :
    (∀ i, activeMode gamma = some i ↔ i < gamma.length ∧ 99 / 100 < gamma.getD i 0 ∧
      ∀ j, j < i → gamma.getD j 0 ≤ 99 / 100) ∧
    (activeMode gamma = none ↔ ∀ g ∈ gamma, g ≤ 99 / 100) := by
  refine ⟨fun i => ?_, ?_⟩
  · unfold activeMode
    rw [List.findIdx?_eq_some_iff_getElem]
    constructor
    · rintro ⟨h, h1, h2⟩
      refine ⟨h, by simpa [List.getD, h] using h1, fun j hj => ?_⟩
      have := h2 j hj
      simpa [List.getD, hj.trans h] using this
    · rintro ⟨h, h1, h2⟩
      refine ⟨h, by simpa [List.getD, h] using h1, fun j hj => ?_⟩
      have := h2 j hj
      simpa [List.getD, hj.trans h] using this
  · unfold activeMode
    rw [List.findIdx?_eq_none_iff]
    simp

/-- C65: binaries which the solver returns within an integrality tolerance below `0.01` give the active mode. -/
theorem C65_mode_tolerance {gamma : Vec K} {i : ℕ} {tol : K} (hi : i < gamma.length) (ht : tol < 1 / 100)
    (h1 : |gamma.getD i 0 - 1| ≤ tol) (h0 : ∀ j, j < gamma.length → j ≠ i → |gamma.getD j 0| ≤ tol) :
    activeMode gamma = some i := by
  rw [(C65_active_mode gamma).1]
  refine ⟨hi, by linarith [(abs_le.1 h1).1], fun j hj => ?_⟩
  have := (abs_le.1 (h0 j (hj.trans hi) hj.ne)).2
  linarith

example : activeMode ([1 / 1000, 999 / 1000, -1 / 1000] : Vec ℚ) = some 1 := by
  refine C65_mode_tolerance (tol := 1 / 500) (by simp) (by norm_num) (by norm_num [abs_of_neg]) ?_
  intro j hj hne
  simp only [List.length_cons, List.length_nil] at hj
  have : j = 0 ∨ j = 2 := by omega
  rcases this with rfl | rfl
  · norm_num
  · norm_num [abs_of_neg]

/-! ### C72: the weighted programs -/

theorem mipLoss_eq {wt : Option K} {f : W → Option K} {w : W} {l : K} (h : mipLoss wt f w = some l) :
    (wt = none → l = 0) ∧ (wt = some 0 → l = 0) ∧ ∀ c, wt = some c → c ≠ 0 → ∃ o, f w = some o ∧ l = c * o := by
  cases wt with
  | none => exact ⟨fun _ => by simpa [mipLoss] using h.symm, by simp, by simp⟩
  | some c =>
    refine ⟨by simp, fun hc => ?_, fun c' hc hne => ?_⟩
    · simp only [Option.some.injEq] at hc
      simpa [mipLoss, hc] using h.symm
    · simp only [Option.some.injEq] at hc
      subst hc
      simp only [mipLoss, ne_eq, hne, not_false_eq_true, if_true, Option.map_eq_some_iff] at h
      obtain ⟨o, ho, rfl⟩ := h
      exact ⟨o, ho, rfl⟩

/-- C72: the two parts of the loss which come from the programs, and the gap: the weight times the objective, zero for a
missing or zero weight. -/
theorem C72_program_losses {env : Env W K} {cfg : TrainCfg K} {w w' : W} {pos der next : Mat K} {t : LossRet K}
    (h : env.totalLoss cfg w pos der next = some (t, w')) :
    (cfg.posMipW = none → t.posMip = 0) ∧ (cfg.posMipW = some 0 → t.posMip = 0) ∧
      (∀ c, cfg.posMipW = some c → c ≠ 0 → ∃ o, env.posMipObj w' = some o ∧ t.posMip = c * o) ∧
    (cfg.derMipW = none → t.derMip = 0) ∧ (cfg.derMipW = some 0 → t.derMip = 0) ∧
      (∀ c, cfg.derMipW = some c → c ≠ 0 → ∃ o, env.derMipObj w' = some o ∧ t.derMip = c * o) ∧
    (cfg.gapW = 0 → t.gapLoss = 0) ∧ (cfg.gapW ≠ 0 → ∃ g, env.gap w' = some g ∧ t.gapLoss = cfg.gapW * g) := by
  obtain ⟨sp, w1, sd, h1, h2, h3, h4, h5, h6, h7, h8, h9, h10, h11⟩ := totalLoss_inv h
  obtain ⟨a1, a2, a3⟩ := mipLoss_eq h7
  obtain ⟨b1, b2, b3⟩ := mipLoss_eq h8
  refine ⟨a1, a2, a3, b1, b2, b3, fun h0 => ?_, fun h0 => ?_⟩
  · simpa [gapLoss, h0] using h9.symm
  · simp only [gapLoss, ne_eq, h0, not_false_eq_true, if_true, Option.map_eq_some_iff] at h9
    obtain ⟨g, hg, e⟩ := h9
    exact ⟨g, hg, e.symm⟩

/-! ### C72: the successors of a feedback system -/

/-- C72: `train` with a feedback system: the reported loss is computed in an iteration whose successors are those of the
controller of that iteration (the process is in state `w0`), for the samples and the states added so far. -/
theorem C72_current_successors (env : Env W K) (cfg : TrainCfg K) (hf : env.sys.feedback = true) {samples : Mat K}
    (n : ℕ) : ∀ {w w' : W} {pos der next : Mat K} {last : Option (LossRet K)} {r : TrainRet K},
    (∃ d, der = samples ++ d) → env.trainLoop cfg (n + 1) w pos der next last = some (r, w') →
    ∃ w0 w1 pos0 der0 next0 t, (∃ d, der0 = samples ++ d) ∧ der0.mapM (env.sys.step w0) = some next0 ∧
      env.totalLoss cfg w0 pos0 der0 next0 = some (t, w1) ∧ r.loss = t.loss ∧
      w' = if r.converged then w1 else env.update w1 t.loss := by
  induction n with
  | zero =>
    intro w w' pos der next last r hd h
    simp only [Env.trainLoop, Option.bind_eq_bind, Option.bind_eq_some_iff] at h
    obtain ⟨nx, hn, ⟨t, w1⟩, ht, b, -, h⟩ := h
    simp only [refreshNext, hf, if_true, TrainSys.stepAll] at hn
    refine ⟨w, w1, pos, der, nx, t, hd, hn, ht, ?_⟩
    split_ifs at h with hb
    · cases h
      simp
    · simp only [Option.map_some, Option.some.injEq, Prod.mk.injEq] at h
      obtain ⟨rfl, rfl⟩ := h
      simp
  | succ n ih =>
    intro w w' pos der next last r hd h
    rw [Env.trainLoop] at h
    simp only [Option.bind_eq_bind, Option.bind_eq_some_iff] at h
    obtain ⟨nx, hn, ⟨t, w1⟩, ht, b, -, h⟩ := h
    simp only [refreshNext, hf, if_true, TrainSys.stepAll] at hn
    split_ifs at h with hb
    · cases h
      exact ⟨w, w1, pos, der, nx, t, hd, hn, ht, rfl, by simp⟩
    · refine ih ?_ h
      have hl : nx.length = der.length := by
        have : ∀ (l : Mat K) (n : Mat K), l.mapM (env.sys.step w) = some n → n.length = l.length := by
          intro l
          induction l with
          | nil => intro n hn; simp at hn; simp [← hn]
          | cons p l ih =>
            intro n hn
            simp only [List.mapM_cons, Option.bind_eq_bind, Option.bind_eq_some_iff] at hn
            obtain ⟨y, -, ys, hys, e⟩ := hn
            cases e
            simp [ih _ hys]
        exact this _ _ hn
      obtain ⟨d, rfl⟩ := hd
      obtain ⟨d', -, e, -⟩ := (C72_total_loss hl ht).2.2.2.2.2
      exact ⟨d ++ d', by rw [e, List.append_assoc]⟩

/-- C72: the same for a whole run of `train`. -/
theorem C72_train_successors (env : Env W K) (cfg : TrainCfg K) (hf : env.sys.feedback = true) {samples : Mat K}
    {w w' : W} {r : TrainRet K} (h : env.train cfg w samples = some (r, w')) :
    ∃ w0 w1 pos0 der0 next0 t, (∃ d, der0 = samples ++ d) ∧ der0.mapM (env.sys.step w0) = some next0 ∧
      env.totalLoss cfg w0 pos0 der0 next0 = some (t, w1) ∧ r.loss = t.loss ∧
      w' = if r.converged then w1 else env.update w1 t.loss := by
  simp only [Env.train, Option.bind_eq_bind, Option.bind_eq_some_iff] at h
  obtain ⟨nx, -, h⟩ := h
  split_ifs at h
  cases hn : cfg.maxIter with
  | zero => simp [hn, Env.trainLoop] at h
  | succ n =>
    rw [hn] at h
    exact C72_current_successors env cfg hf n ⟨[], by simp⟩ h

/-- A controller with one parameter `w`, the system `x⁺ = w x`, and training which adds one to `w`: after two
iterations the loss is that of the successors for `w = 1`. -/
def stepEnv : Env ℚ ℚ where
  sys := ⟨fun w x => some (vsmul w x), none, true⟩
  solvePos := fun w => some (⟨1, []⟩, w)
  solveDer := fun w => some (⟨1, []⟩, w)
  posMipObj := fun _ => some 0
  derMipObj := fun _ => some 0
  gap := fun _ => some 0
  posLoss := fun _ _ => 0
  derLoss := fun _ _ n => (n.getD 0 []).getD 0 0
  update := fun w _ => w + 1

def stepCfg : TrainCfg ℚ := ⟨1, 1, false, 2, 0, 0, true, true, 5, 0, 1, some 0, some 0, 0, true⟩

theorem stepEnv_train : stepEnv.train stepCfg 0 [[7]] = some (⟨false, 7, some 1, some 1⟩, 2) := by
  norm_num [Env.train, stepEnv, stepCfg, TrainSys.stepAll, Env.trainLoop, refreshNext, Env.totalLoss, optSolve, mipLoss,
    gapLoss, enlargePos, enlargeDer, derAdversarial, derNext, keptSols, posAdversarial, Env.sampleLoss, inPool, nextInPool,
    bothWithin, leNone, vsmul]

example : ∃ w0 w1 pos0 der0 next0 t, (∃ d, der0 = [[7]] ++ d) ∧ der0.mapM (stepEnv.sys.step w0) = some next0 ∧
      stepEnv.totalLoss stepCfg w0 pos0 der0 next0 = some (t, w1) ∧ (7 : ℚ) = t.loss ∧
      2 = if false then w1 else stepEnv.update w1 t.loss :=
  C72_train_successors stepEnv stepCfg rfl stepEnv_train

/-! ### C56: the options of `train_adversarial` -/

/-- C56: `train_adversarial` raises unless adversarial states are added to both sets. -/
theorem C56_adversarial_options_raise (env : Env W K) (cfg : TrainCfg K) (o : AdvCfg W K)
    (descend : W → Mat K → Mat K → Option W) (w : W) (pos der : Mat K) (h : cfg.addDer = false ∨ cfg.addPos = false) :
    env.trainAdversarial cfg o descend w pos der = none := by
  unfold Env.trainAdversarial
  rw [if_neg]
  rcases h with h | h <;> simp [h]

example : stepEnv.trainAdversarial { stepCfg with addPos := false } ⟨1, 1, none, none⟩ (fun w _ _ => some w) 0 [] [] = none :=
  C56_adversarial_options_raise _ _ _ _ _ _ _ (Or.inr rfl)

/-! ### C73: the solves of the regions and the weighted programs -/

/-- The solves of the regions `k, k+1, …` one after the other: `st` are the states of the process in between. -/
theorem solveVals_chain (env : BarrierEnv W K) (safe : Bool) : ∀ (n k : ℕ) {w w' : W} {ss : List (Solve K)},
    env.solveVals safe (List.range' k n) w = some (ss, w') →
    ∃ st : ℕ → W, st 0 = w ∧ st n = w' ∧ ss.length = n ∧
      ∀ i, i < n → ∃ s, ss[i]? = some s ∧ env.solveVal safe (k + i) (st i) = some (s, st (i + 1))
  | 0, k, w, w', ss, h => by
    simp only [List.range'_zero, BarrierEnv.solveVals, Option.some.injEq, Prod.mk.injEq] at h
    exact ⟨fun _ => w, rfl, h.2, by simp [← h.1], by simp⟩
  | n + 1, k, w, w', ss, h => by
    rw [List.range'_succ] at h
    simp only [BarrierEnv.solveVals, Option.bind_eq_bind, Option.bind_eq_some_iff] at h
    obtain ⟨⟨s, w1⟩, hs, ⟨t, w2⟩, ht, e⟩ := h
    cases e
    obtain ⟨st, h0, hn, hl, hst⟩ := solveVals_chain env safe n (k + 1) ht
    refine ⟨fun i => if i = 0 then w else st (i - 1), by simp, by simp [hn], by simp [hl], fun i hi => ?_⟩
    cases i with
    | zero => exact ⟨s, by simp, by simpa [h0] using hs⟩
    | succ i =>
      obtain ⟨s', e1, e2⟩ := hst i (by omega)
      refine ⟨s', by simpa using e1, ?_⟩
      have : k + (i + 1) = k + 1 + i := by omega
      simpa [this] using e2

/-- What `compute_barrier_loss` reports of the regions of one kind: the state of the process runs through the solves in
order. -/
def RegionSolves (env : BarrierEnv W K) (pool : ℕ) (safe : Bool) (n : ℕ) (c : K) (w w' : W) (samples all : Mat K)
    (obj : Option (Vec K)) (loss : Option (Vec K)) : Prop :=
  ∃ (st : ℕ → W) (ss : ℕ → Solve K), st 0 = w ∧ st n = w' ∧
    (∀ i, i < n → env.solveVal safe i (st i) = some (ss i, st (i + 1))) ∧
    all = samples ++ (List.range n).flatMap (fun i => ((ss i).pool.take pool).map PoolSol.x) ∧
    obj = some ((List.range n).map fun i => (ss i).objVal) ∧
    (c = 0 → loss = none) ∧
    (c ≠ 0 → ∃ o : ℕ → K, (∀ i, i < n → env.valMipObj safe i w' = some (o i)) ∧
      loss = some ((List.range n).map fun i => c * o i))

theorem mapM_range {α : Type} (f : ℕ → Option α) (d : α) (n : ℕ) : ∀ {l : List α}, (List.range n).mapM f = some l →
    ∃ o : ℕ → α, (∀ i, i < n → f i = some (o i)) ∧ l = (List.range n).map o := by
  induction n with
  | zero =>
    intro l h
    simp only [List.range_zero, List.mapM_nil, Option.pure_def, Option.some.injEq] at h
    exact ⟨fun _ => d, by simp, by simp [← h]⟩
  | succ n ih =>
    intro l h
    rw [List.range_succ, List.mapM_append] at h
    simp only [List.mapM_cons, List.mapM_nil, Option.bind_eq_bind, Option.bind_eq_some_iff, Option.pure_def,
      Option.some.injEq] at h
    obtain ⟨a, ha, b, ⟨c, hc, _, rfl, rfl⟩, rfl⟩ := h
    obtain ⟨o, ho, rfl⟩ := ih ha
    refine ⟨fun i => if i = n then c else o i, fun i hi => ?_, ?_⟩
    · by_cases hin : i = n
      · simp [hin, hc]
      · simpa [hin] using ho i (by omega)
    · rw [List.range_succ, List.map_append, List.map_cons, List.map_nil, if_pos rfl]
      congr 1
      refine List.map_congr_left fun i hi => ?_
      rw [if_neg (by have := List.mem_range.1 hi; omega)]

theorem valuePart_solves {env : BarrierEnv W K} {pool : ℕ} {fl : Bool} {n : ℕ} {c : K} {w w' : W} {samples : Mat K}
    {r : Option (Vec K) × Option (Vec K) × Option (List (Mat K))}
    (h : env.valuePart pool fl n (some c) w = some (r, w')) :
    RegionSolves env pool fl n c w w' samples (withRegions samples r.2.2) r.1 r.2.1 := by
  simp only [BarrierEnv.valuePart, Option.bind_eq_bind, Option.bind_eq_some_iff] at h
  obtain ⟨⟨ss, w2⟩, hs, l, hl, e⟩ := h
  cases e
  rw [List.range_eq_range'] at hs
  obtain ⟨st, h0, hn, hlen, hst⟩ := solveVals_chain env fl n 0 hs
  have hss : ss = (List.range n).map fun i => ss.getD i ⟨0, []⟩ := by
    refine List.ext_getElem (by simp [hlen]) fun i h1 h2 => ?_
    simp [List.getD, h1]
  refine ⟨st, fun i => ss.getD i ⟨0, []⟩, h0, hn, fun i hi => ?_, ?_, ?_, fun hc => ?_, fun hc => ?_⟩
  · obtain ⟨s, e1, e2⟩ := hst i hi
    simpa [List.getD, e1] using e2
  · simp only [withRegions]
    congr 1
    conv_lhs => rw [hss]
    rw [List.map_map, List.flatMap_def]
    rfl
  · simp only [Option.some.injEq]
    conv_lhs => rw [hss]
    rw [List.map_map]
    rfl
  · simp only [BarrierEnv.valLosses, hc, ne_eq, not_true_eq_false, if_false, Option.some.injEq] at hl
    exact hl.symm
  · simp only [BarrierEnv.valLosses, hc, ne_eq, not_false_eq_true, if_true, Option.map_eq_some_iff] at hl
    obtain ⟨l', hl', rfl⟩ := hl
    obtain ⟨o, ho, rfl⟩ := mapM_range _ 0 n hl'
    refine ⟨fun i => o i / c, fun i hi => ?_, ?_⟩
    · have := ho i hi
      rw [Option.map_eq_some_iff] at this
      obtain ⟨a, ha, e⟩ := this
      simp only [ha, ← e, mul_div_cancel_left₀ _ hc]
    · show some _ = some _
      congr 1
      refine List.map_congr_left fun i _ => ?_
      field_simp

/-- C73: `compute_barrier_loss` solves the programs of the safe regions, of the unsafe regions and of the derivative
condition in this order, and weights each objective. -/
theorem C73_regions {env : BarrierEnv W K} {cfg : BarrierCfg K} {w w' : W} {safe unsafe_ der : Mat K}
    {t : BarrierLossRet K} (h : env.barrierLoss cfg w safe unsafe_ der = some (t, w')) :
    ∃ wu wd, (∀ c, cfg.safeMipW = some c →
        RegionSolves env cfg.valPool true env.nSafe c w wu safe t.safe t.safeObj t.safeMip) ∧
      (∀ c, cfg.unsafeMipW = some c →
        RegionSolves env cfg.valPool false env.nUnsafe c wu wd unsafe_ t.unsafe_ t.unsafeObj t.unsafeMip) ∧
      (cfg.safeMipW = none → wu = w) ∧ (cfg.unsafeMipW = none → wd = wu) ∧ (cfg.derMipW = none → w' = wd) ∧
      ∀ c, cfg.derMipW = some c → ∃ s, env.solveDer wd = some (s, w') ∧ t.derObj = some s.objVal ∧
        (c = 0 → t.derMip = none) ∧ (c ≠ 0 → ∃ o, env.derMipObj w' = some o ∧ t.derMip = some (c * o)) := by
  simp only [BarrierEnv.barrierLoss, Option.bind_eq_bind, Option.bind_eq_some_iff] at h
  obtain ⟨⟨s, wu⟩, h1, ⟨u, wd⟩, h2, ⟨d, wl⟩, h3, l1, k1, l2, k2, l3, k3, e⟩ := h
  cases e
  refine ⟨wu, wd, fun c hc => ?_, fun c hc => ?_, fun hc => ?_, fun hc => ?_, fun hc => ?_, fun c hc => ?_⟩
  · rw [hc] at h1
    exact valuePart_solves h1
  · rw [hc] at h2
    exact valuePart_solves h2
  · simp only [hc, BarrierEnv.valuePart, Option.some.injEq, Prod.mk.injEq] at h1
    exact h1.2.symm
  · simp only [hc, BarrierEnv.valuePart, Option.some.injEq, Prod.mk.injEq] at h2
    exact h2.2.symm
  · simp only [hc, BarrierEnv.derPart, Option.some.injEq, Prod.mk.injEq] at h3
    exact h3.2.symm
  · simp only [hc, BarrierEnv.derPart, Option.bind_eq_bind, Option.bind_eq_some_iff] at h3
    obtain ⟨⟨s, w2⟩, hs, a, ha, l, hl, e⟩ := h3
    cases e
    refine ⟨s, hs, rfl, fun h0 => ?_, fun h0 => ?_⟩
    · simp only [BarrierEnv.derMipLoss, h0, ne_eq, not_true_eq_false, if_false, Option.some.injEq] at hl
      exact hl.symm
    · simp only [BarrierEnv.derMipLoss, h0, ne_eq, not_false_eq_true, if_true, Option.map_eq_some_iff] at hl
      obtain ⟨o, ho, rfl⟩ := hl
      exact ⟨o, ho, rfl⟩

/-- Two safe regions; each solve adds one to the state of the process, which is the objective. -/
def regionEnv : BarrierEnv ℚ ℚ where
  nSafe := 2
  nUnsafe := 0
  solveVal := fun _ _ w => some (⟨w, [⟨[w], [], w⟩]⟩, w + 1)
  solveDer := fun w => some (⟨w, [⟨[w], [], w⟩]⟩, w + 1)
  valMipObj := fun _ i w => some (i + w)
  derMipObj := fun w => some w
  safeLoss := fun _ _ => some 0
  unsafeLoss := fun _ _ => some 0
  derLoss := fun _ _ => some 0

example : ∃ t, regionEnv.barrierLoss ⟨1, 1, false, 5, some 2, none, some 3⟩ 10 [] [] [] = some (t, 13) ∧
    t.safe = [[10], [11]] ∧ t.safeObj = some [10, 11] ∧ t.safeMip = some [24, 26] ∧ t.derMip = some 39 := by
  refine ⟨⟨some [10, 11], none, some 12, 0, 0, 0, some [24, 26], none, some 39, [[10], [11]], [], [[12]]⟩, ?_,
    rfl, rfl, rfl, rfl⟩
  norm_num [BarrierEnv.barrierLoss, BarrierEnv.valuePart, BarrierEnv.solveVals, BarrierEnv.valLosses, regionEnv,
    List.range_succ, BarrierEnv.derPart, BarrierEnv.derMipLoss, barrierDerAdversarial, withRegions, withStates,
    barrierValAdversarial, posAdversarial, keptSols, keepSol]

end NNL.Props
