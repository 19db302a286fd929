import Verif.Spec.Trainer
import Verif.Props.Converge

/-!
# Training loops: C56
-/

set_option linter.unusedSectionVars false

namespace NNL.Props

open NNL NNL.Spec NNL.Model

variable {K : Type} [Field K] [LinearOrder K] [IsStrictOrderedRing K] {W : Type}

/-! ### Recording does not change the run -/

theorem logged_stepAll (env : Env W K) (w : W) (l : Log K) (xs : Mat K) :
    (logged env).sys.stepAll (w, l) xs = env.sys.stepAll w xs := rfl

theorem logged_derNext (env : Env W K) (w : W) (l : Log K) (ss : List (PoolSol K)) :
    derNext (logged env).sys (w, l) ss = derNext env.sys w ss := by
  unfold derNext logged
  cases env.sys.stepMode <;> rfl

theorem logged_derAdversarial (env : Env W K) (w : W) (l : Log K) (n : ℕ) (only : Bool) (s : Solve K) :
    derAdversarial (logged env).sys (w, l) n only s = derAdversarial env.sys w n only s := by
  rw [derAdversarial, derAdversarial, logged_derNext]

theorem logged_enlargeDer (env : Env W K) (w : W) (l : Log K) (add : Bool) (s : Option (Solve K)) (n : ℕ) (only : Bool)
    (der next : Mat K) :
    enlargeDer (logged env).sys (w, l) add s n only der next = enlargeDer env.sys w add s n only der next := by
  cases s <;> simp [enlargeDer, logged_derAdversarial]

/-- The log after a call of `total_loss`. -/
def logAdd (l : Log K) (p d : Option (Solve K)) : Log K := ⟨l.pos ++ p.toList, l.der ++ d.toList⟩

theorem logged_optSolvePos (env : Env W K) (wt : Option K) (w : W) (l : Log K) :
    optSolve wt (logged env).solvePos (w, l) =
      (optSolve wt env.solvePos w).map fun r => (r.1, (r.2, logAdd l r.1 none)) := by
  cases wt with
  | none => simp [optSolve, logAdd]
  | some c =>
    simp only [optSolve, logged, Option.map_map]
    congr 1
    funext r
    simp [logAdd]

theorem logged_optSolveDer (env : Env W K) (wt : Option K) (w : W) (l : Log K) :
    optSolve wt (logged env).solveDer (w, l) =
      (optSolve wt env.solveDer w).map fun r => (r.1, (r.2, logAdd l none r.1)) := by
  cases wt with
  | none => simp [optSolve, logAdd]
  | some c =>
    simp only [optSolve, logged, Option.map_map]
    congr 1
    funext r
    simp [logAdd]

theorem logged_totalLoss (env : Env W K) (cfg : TrainCfg K) (w : W) (l : Log K) (pos der next : Mat K) :
    ((logged env).totalLoss cfg (w, l) pos der next).map (fun r => (r.1, r.2.1)) =
      env.totalLoss cfg w pos der next := by
  unfold Env.totalLoss
  rw [logged_optSolvePos]
  cases optSolve cfg.posMipW env.solvePos w with
  | none => rfl
  | some sp =>
    simp only [Option.map_some, Option.bind_eq_bind, Option.bind_some, logged_optSolveDer]
    cases optSolve cfg.derMipW env.solveDer sp.2 with
    | none => rfl
    | some sd =>
      simp only [Option.map_some, Option.bind_some, logged_enlargeDer]
      have e1 : ∀ l', mipLoss cfg.posMipW (logged env).posMipObj (sd.2, l') = mipLoss cfg.posMipW env.posMipObj sd.2 :=
        fun _ => rfl
      have e2 : ∀ l', mipLoss cfg.derMipW (logged env).derMipObj (sd.2, l') = mipLoss cfg.derMipW env.derMipObj sd.2 :=
        fun _ => rfl
      have e3 : ∀ l', gapLoss (logged env) cfg.gapW (sd.2, l') = gapLoss env cfg.gapW sd.2 := fun _ => rfl
      rw [e1, e2, e3]
      cases mipLoss cfg.posMipW env.posMipObj sd.2 <;> try rfl
      cases mipLoss cfg.derMipW env.derMipObj sd.2 <;> try rfl
      cases gapLoss env cfg.gapW sd.2 <;> try rfl
      cases enlargeDer env.sys sd.2 cfg.addDer sd.1 cfg.derPool cfg.only der next <;> rfl

theorem logged_trainLoop (env : Env W K) (cfg : TrainCfg K) (n : ℕ) : ∀ (w : W) (l : Log K) (pos der next : Mat K)
    (last : Option (LossRet K)),
    ((logged env).trainLoop cfg n (w, l) pos der next last).map (fun r => (r.1, r.2.1)) =
      env.trainLoop cfg n w pos der next last := by
  induction n with
  | zero =>
    intro w l pos der next last
    cases last <;> rfl
  | succ n ih =>
    intro w l pos der next last
    unfold Env.trainLoop
    have e : refreshNext (logged env) (w, l) der next = refreshNext env w der next := rfl
    rw [e]
    cases refreshNext env w der next with
    | none => rfl
    | some nx =>
      simp only [Option.bind_eq_bind, Option.bind_some, ← logged_totalLoss env cfg w l pos der nx]
      cases (logged env).totalLoss cfg (w, l) pos der nx with
      | none => rfl
      | some t =>
        simp only [Option.map_some, Option.bind_some]
        cases hb : bothWithin t.1.posObj t.1.derObj cfg.posTol cfg.derTol with
        | none => rfl
        | some b =>
          cases b with
          | true => simp
          | false =>
            simp only [Option.bind_some, Bool.false_eq_true, if_false]
            exact ih _ _ _ _ _ _

/-- The recorded run is the run. -/
theorem C56_logged (env : Env W K) (cfg : TrainCfg K) (w : W) (l : Log K) (samples : Mat K) :
    ((logged env).train cfg (w, l) samples).map (fun r => (r.1, r.2.1)) = env.train cfg w samples := by
  unfold Env.train
  rw [logged_stepAll]
  cases env.sys.stepAll w samples with
  | none => rfl
  | some nx =>
    simp only [Option.bind_eq_bind, Option.bind_some]
    split_ifs
    · exact logged_trainLoop env cfg _ _ _ _ _ _ _
    · rfl

/-! ### What the loop returns -/

/-- What `total_loss` reports of the solved programs, and the sets it returns. -/
theorem totalLoss_inv {env : Env W K} {cfg : TrainCfg K} {w w' : W} {pos der next : Mat K} {t : LossRet K}
    (h : env.totalLoss cfg w pos der next = some (t, w')) :
    ∃ sp w1 sd, optSolve cfg.posMipW env.solvePos w = some (sp, w1) ∧
      optSolve cfg.derMipW env.solveDer w1 = some (sd, w') ∧
      t.posObj = sp.map Solve.objVal ∧ t.derObj = sd.map Solve.objVal ∧
      t.pos = enlargePos cfg.addPos sp cfg.posPool cfg.only pos ∧
      enlargeDer env.sys w' cfg.addDer sd cfg.derPool cfg.only der next = some (t.der, t.next) ∧
      mipLoss cfg.posMipW env.posMipObj w' = some t.posMip ∧ mipLoss cfg.derMipW env.derMipObj w' = some t.derMip ∧
      gapLoss env cfg.gapW w' = some t.gapLoss ∧
      (t.posSample, t.derSample) = env.sampleLoss w' cfg.posW cfg.derW (inPool cfg.maxPool t.pos)
        (inPool cfg.maxPool t.der) (nextInPool cfg.maxPool t.der t.next) ∧
      t.loss = t.posSample + t.derSample + t.posMip + t.derMip + t.gapLoss := by
  simp only [Env.totalLoss, Option.bind_eq_bind, Option.bind_eq_some_iff, Option.some.injEq, Prod.mk.injEq] at h
  obtain ⟨sp, h1, sd, h2, lp, h3, ld, h4, lg, h5, dn, h6, rfl, rfl⟩ := h
  exact ⟨sp.1, sp.2, sd.1, h1, h2, rfl, rfl, rfl, h6, h3, h4, h5, rfl, rfl⟩

/-- Both objectives are within the tolerances. -/
def Within (cfg : TrainCfg K) (a b : Solve K) : Prop := a.objVal ≤ cfg.posTol ∧ b.objVal ≤ cfg.derTol

theorem optSolve_some {c : K} {f : W → Option (Solve K × W)} {w w' : W} {s : Option (Solve K)}
    (h : optSolve (some c) f w = some (s, w')) : ∃ a, s = some a ∧ f w = some (a, w') := by
  simp only [optSolve, Option.map_eq_some_iff, Prod.mk.injEq] at h
  obtain ⟨r, hr, rfl, rfl⟩ := h
  exact ⟨r.1, rfl, hr⟩

theorem trainLoop_history (env : Env W K) (cfg : TrainCfg K) {cp cd : K} (hp : cfg.posMipW = some cp)
    (hd : cfg.derMipW = some cd) (n : ℕ) : ∀ (w w' : W) (l l' : Log K) (pos der next : Mat K)
    (last : Option (LossRet K)) (r : TrainRet K),
    (logged env).trainLoop cfg n (w, l) pos der next last = some (r, (w', l')) →
    (n = 0 ∧ l' = l ∧ w' = w ∧ r.converged = false ∧
      ∃ t, last = some t ∧ r.posObj = t.posObj ∧ r.derObj = t.derObj ∧ r.loss = t.loss) ∨
    ∃ (pre : List (Solve K × Solve K)) (a b : Solve K), l'.pos = l.pos ++ (pre.map Prod.fst ++ [a]) ∧
      l'.der = l.der ++ (pre.map Prod.snd ++ [b]) ∧ (∀ h ∈ pre, ¬ Within cfg h.1 h.2) ∧
      (r.converged = true ↔ Within cfg a b) ∧ r.posObj = some a.objVal ∧ r.derObj = some b.objVal ∧
      pre.length < n ∧ (r.converged = false → pre.length + 1 = n) ∧
      (r.converged = true → ∃ w0 w1, env.solvePos w0 = some (a, w1) ∧ env.solveDer w1 = some (b, w')) := by
  induction n with
  | zero =>
    intro w w' l l' pos der next last r h
    simp only [Env.trainLoop, Option.map_eq_some_iff, Prod.mk.injEq] at h
    obtain ⟨t, h1, rfl, rfl, rfl⟩ := h
    exact Or.inl ⟨rfl, rfl, rfl, rfl, t, h1, rfl, rfl, rfl⟩
  | succ n ih =>
    intro w w' l l' pos der next last r h
    right
    simp only [Env.trainLoop, Option.bind_eq_bind, Option.bind_eq_some_iff] at h
    obtain ⟨nx, -, ⟨t, wt, lt⟩, ht, b, hb, h⟩ := h
    obtain ⟨sp, ⟨w1, l1⟩, sd, s1, s2, tp, td, -⟩ := totalLoss_inv ht
    rw [hp] at s1
    rw [hd] at s2
    obtain ⟨a, rfl, fa⟩ := optSolve_some s1
    obtain ⟨a2, rfl, fd⟩ := optSolve_some s2
    simp only [logged, Option.map_eq_some_iff, Prod.mk.injEq] at fa fd
    obtain ⟨⟨pa, pw⟩, ea, rfl, rfl, rfl⟩ := fa
    obtain ⟨⟨da, dw⟩, ed, rfl, rfl, rfl⟩ := fd
    simp only at tp td hb h ea ed
    have hbw : b = true ↔ Within cfg pa da := by
      rw [tp, td] at hb
      simp only [bothWithin, leNone, Option.map_some, Option.bind_eq_bind, Option.bind_some] at hb
      unfold Within
      by_cases c1 : pa.objVal ≤ cfg.posTol
      · simp only [c1, decide_true, if_true, Option.some.injEq] at hb
        rw [← hb]
        simp [c1]
      · simp only [c1, decide_false, Bool.false_eq_true, if_false, Option.some.injEq] at hb
        rw [← hb]
        simp [c1]
    cases b with
    | true =>
      simp only [if_true, Option.some.injEq, Prod.mk.injEq] at h
      obtain ⟨rfl, rfl, rfl⟩ := h
      exact ⟨[], pa, da, by simp, by simp, by simp, by simpa using hbw, tp, td, by simp, by simp,
        fun _ => ⟨_, _, ea, ed⟩⟩
    | false =>
      simp only [Bool.false_eq_true, if_false] at h
      have hnw : ¬ Within cfg pa da := fun hw => by simpa using hbw.2 hw
      rcases ih _ _ _ _ _ _ _ _ _ h with ⟨rfl, rfl, rfl, hc, t', ht', e1, e2, -⟩ | ⟨pre, a, b, i1, i2, i3, i4, i5, i6, i7, i8, i9⟩
      · cases ht'
        refine ⟨[], pa, da, by simp, by simp, by simp, by simp [hc, hnw], ?_, ?_, by simp, by simp, by simp [hc]⟩
        · rw [e1, tp]
          rfl
        · rw [e2, td]
          rfl
      · refine ⟨(pa, da) :: pre, a, b, by simp [i1], by simp [i2], ?_, i4, i5, i6, by simpa using i7, ?_, i9⟩
        · intro x hx
          rcases List.mem_cons.1 hx with rfl | hx
          · exact hnw
          · exact i3 x hx
        · intro hc
          have := i8 hc
          simp
          omega

/-- C56. The whole run of `train`: at least one and at most `max_iterations` pairs of programs are solved, the
objectives returned are those of the last pair, no earlier pair was within the tolerances, `True` is returned exactly if
the last pair is, and `False` only after `max_iterations` pairs. -/
theorem C56_train (env : Env W K) (cfg : TrainCfg K) {cp cd : K} (hp : cfg.posMipW = some cp)
    (hd : cfg.derMipW = some cd) (w w' : W) (l : Log K) (samples : Mat K) (r : TrainRet K)
    (h : (logged env).train cfg (w, ⟨[], []⟩) samples = some (r, (w', l))) :
    ∃ (pre : List (Solve K × Solve K)) (a b : Solve K), l.pos = pre.map Prod.fst ++ [a] ∧
      l.der = pre.map Prod.snd ++ [b] ∧ (∀ h ∈ pre, ¬ Within cfg h.1 h.2) ∧
      (r.converged = true ↔ Within cfg a b) ∧ r.posObj = some a.objVal ∧ r.derObj = some b.objVal ∧
      pre.length < cfg.maxIter ∧ (r.converged = false → pre.length + 1 = cfg.maxIter) := by
  simp only [Env.train, Option.bind_eq_bind, Option.bind_eq_some_iff] at h
  obtain ⟨nx, -, h⟩ := h
  split_ifs at h
  rcases trainLoop_history env cfg hp hd _ _ _ _ _ _ _ _ _ _ h with
    ⟨-, -, -, -, t, ht, -⟩ | ⟨pre, a, b, i1, i2, i3, i4, i5, i6, i7, i8, i9⟩
  · cases ht
  · exact ⟨pre, a, b, by simpa using i1, by simpa using i2, i3, i4, i5, i6, i7, i8⟩

/-- C56. When `train` returns `True`, its last two calls were the solves of the two programs, with the returned
objectives within the tolerances; the parameters were not touched afterwards. -/
theorem C56_train_true (env : Env W K) (cfg : TrainCfg K) {cp cd : K} (hp : cfg.posMipW = some cp)
    (hd : cfg.derMipW = some cd) (w w' : W) (samples : Mat K) (r : TrainRet K)
    (h : env.train cfg w samples = some (r, w')) (hr : r.converged = true) :
    ∃ w0 w1 a b, env.solvePos w0 = some (a, w1) ∧ env.solveDer w1 = some (b, w') ∧ r.posObj = some a.objVal ∧
      r.derObj = some b.objVal ∧ a.objVal ≤ cfg.posTol ∧ b.objVal ≤ cfg.derTol := by
  rw [← C56_logged env cfg w ⟨[], []⟩] at h
  simp only [Option.map_eq_some_iff, Prod.mk.injEq] at h
  obtain ⟨⟨r', w'', l⟩, h, rfl, rfl⟩ := h
  simp only [Env.train, Option.bind_eq_bind, Option.bind_eq_some_iff] at h
  obtain ⟨nx, -, h⟩ := h
  split_ifs at h
  rcases trainLoop_history env cfg hp hd _ _ _ _ _ _ _ _ _ _ h with
    ⟨-, -, -, -, t, ht, -⟩ | ⟨pre, a, b, i1, i2, i3, i4, i5, i6, i7, i8, i9⟩
  · cases ht
  · obtain ⟨w0, w1, e1, e2⟩ := i9 hr
    exact ⟨w0, w1, a, b, e1, e2, i5, i6, (i4.1 hr).1, (i4.1 hr).2⟩

theorem trainLoop_no_pos (env : Env W K) (cfg : TrainCfg K) (hp : cfg.posMipW = none) (n : ℕ) (w : W)
    (pos der next : Mat K) (last : Option (LossRet K)) : env.trainLoop cfg (n + 1) w pos der next last = none := by
  rw [Option.eq_none_iff_forall_not_mem]
  rintro ⟨r, w'⟩ h
  simp only [Env.trainLoop, Option.mem_def, Option.bind_eq_bind, Option.bind_eq_some_iff] at h
  obtain ⟨nx, -, ⟨t, wt⟩, ht, b, hb, h⟩ := h
  obtain ⟨sp, w1, sd, s1, s2, tp, td, -⟩ := totalLoss_inv ht
  rw [hp] at s1
  simp only [optSolve, Option.some.injEq, Prod.mk.injEq] at s1
  rw [tp, ← s1.1] at hb
  simp [bothWithin, leNone] at hb

/-- A run without the positivity program (weight `None`) always raises: `None <= tol`. -/
theorem C56_train_no_positivity_raises (env : Env W K) (cfg : TrainCfg K) (hp : cfg.posMipW = none) (w : W)
    (samples : Mat K) : env.train cfg w samples = none := by
  unfold Env.train
  cases env.sys.stepAll w samples with
  | none => rfl
  | some nx =>
    simp only [Option.bind_eq_bind, Option.bind_some]
    split_ifs
    · cases cfg.maxIter with
      | zero => rfl
      | succ n => exact trainLoop_no_pos env cfg hp n _ _ _ _ _
    · rfl

theorem trainLoop_no_der (env : Env W K) (cfg : TrainCfg K) (hd : cfg.derMipW = none) (n : ℕ) : ∀ (w : W)
    (pos der next : Mat K) (last : Option (LossRet K)) (r : TrainRet K) (w' : W),
    env.trainLoop cfg n w pos der next last = some (r, w') → r.converged = false := by
  induction n with
  | zero =>
    intro w pos der next last r w' h
    simp only [Env.trainLoop, Option.map_eq_some_iff, Prod.mk.injEq] at h
    obtain ⟨t, h1, rfl, rfl⟩ := h
    rfl
  | succ n ih =>
    intro w pos der next last r w' h
    simp only [Env.trainLoop, Option.bind_eq_bind, Option.bind_eq_some_iff] at h
    obtain ⟨nx, -, ⟨t, wt⟩, ht, b, hb, h⟩ := h
    obtain ⟨sp, w1, sd, s1, s2, tp, td, -⟩ := totalLoss_inv ht
    rw [hd] at s2
    simp only [optSolve, Option.some.injEq, Prod.mk.injEq] at s2
    rw [td, ← s2.1] at hb
    cases b with
    | true =>
      exfalso
      unfold bothWithin leNone at hb
      cases ho : t.posObj with
      | none => simp [ho] at hb
      | some a =>
        by_cases c : a ≤ cfg.posTol
        · simp [ho, c] at hb
        · simp [ho, c] at hb
    | false =>
      simp only [Bool.false_eq_true, if_false] at h
      exact ih _ _ _ _ _ _ _ h

/-- A run without the derivative program never returns `True`. -/
theorem C56_train_no_derivative (env : Env W K) (cfg : TrainCfg K) (hd : cfg.derMipW = none) (w w' : W)
    (samples : Mat K) (r : TrainRet K) (h : env.train cfg w samples = some (r, w')) : r.converged = false := by
  simp only [Env.train, Option.bind_eq_bind, Option.bind_eq_some_iff] at h
  obtain ⟨nx, -, h⟩ := h
  split_ifs at h
  exact trainLoop_no_der env cfg hd _ _ _ _ _ _ _ _ h

/-- `max_iterations = 0` raises (`total_loss_return` is not bound). -/
theorem C56_train_zero_iterations_raises (env : Env W K) (cfg : TrainCfg K) (h0 : cfg.maxIter = 0) (w : W)
    (samples : Mat K) : env.train cfg w samples = none := by
  unfold Env.train
  cases env.sys.stepAll w samples with
  | none => rfl
  | some nx =>
    simp only [Option.bind_eq_bind, Option.bind_some, h0]
    split_ifs <;> rfl

/-! ### Adversarial training -/

theorem pySuffix_pos {α : Type*} {n : ℕ} (hn : n ≠ 0) (l : List α) : pySuffix n l = lastN n l := by
  simp [pySuffix, lastN, hn]

/-- With a positive limit the pool is the last `n` samples. -/
theorem inPool_pos {α : Type*} {n : ℕ} (hn : n ≠ 0) (l : List α) : inPool n l = lastN n l := by
  unfold inPool
  split_ifs with h
  · exact pySuffix_pos hn l
  · rw [lastN, Nat.sub_eq_zero_of_le (by omega), List.drop_zero]

/-- With the limit 0 nothing is dropped: `l[-0:]` is `l`. -/
theorem inPool_zero {α : Type*} (l : List α) : inPool 0 l = l := by
  simp [inPool, pySuffix]

theorem length_lastN {α : Type*} (n : ℕ) (l : List α) : (lastN n l).length ≤ n := by
  simp [lastN]
  omega

theorem lastN_append_lastN {α : Type*} (n : ℕ) (a b : List α) : lastN n (lastN n a ++ b) = lastN n (a ++ b) := by
  unfold lastN
  rw [← List.drop_append_of_le_length (Nat.sub_le _ _), List.drop_drop, List.length_drop, List.length_append]
  congr 1
  omega

theorem inPool_append {α : Type*} (n : ℕ) (a b : List α) : inPool n (inPool n a ++ b) = inPool n (a ++ b) := by
  rcases Nat.eq_zero_or_pos n with rfl | hn
  · simp [inPool_zero]
  · rw [inPool_pos (by omega), inPool_pos (by omega), inPool_pos (by omega), lastN_append_lastN]

/-- Everything that was added to the positivity set. -/
def posAdded (cfg : TrainCfg K) (o : AdvCfg W K) (solves : List (Solve K)) : Mat K :=
  (solves.map fun s => clustered o.radius (posAdversarial cfg.posPool cfg.only s)).flatten

/-- Everything that was added to the derivative set, when there is no perturbation. -/
def derAdded (cfg : TrainCfg K) (o : AdvCfg W K) (solves : List (Solve K)) : Mat K :=
  (solves.map fun s => clustered o.radius (posAdversarial cfg.derPool cfg.only s)).flatten

/-- Both objectives are below the tolerances. -/
def Under (cfg : TrainCfg K) (a b : Solve K) : Prop := a.objVal < cfg.posTol ∧ b.objVal < cfg.derTol

/-- The perturbation of `options`, in a recorded run. -/
def loggedAdv (o : AdvCfg W K) : AdvCfg (W × Log K) K :=
  ⟨o.posLimit, o.derLimit, o.radius, o.noise.map fun f w a => ((f w.1 a).1, ((f w.1 a).2, w.2))⟩

/-- The descent, in a recorded run. -/
def loggedDescend (descend : W → Mat K → Mat K → Option W) (w : W × Log K) (p d : Mat K) : Option (W × Log K) :=
  (descend w.1 p d).map fun w' => (w', w.2)

theorem logged_advLoop (env : Env W K) (cfg : TrainCfg K) (o : AdvCfg W K) (descend : W → Mat K → Mat K → Option W)
    (n : ℕ) : ∀ (w : W) (l : Log K) (pos der : Mat K) (rp rd : Vec K),
    ((logged env).advLoop cfg (loggedAdv o) (loggedDescend descend) n (w, l) pos der rp rd).map
      (fun r => (r.1, r.2.1)) = env.advLoop cfg o descend n w pos der rp rd := by
  induction n with
  | zero => intros; rfl
  | succ n ih =>
    intro w l pos der rp rd
    unfold Env.advLoop
    simp only [Option.bind_eq_bind, logged]
    cases env.solvePos w with
    | none => rfl
    | some sp =>
      simp only [Option.map_some, Option.bind_some]
      cases env.solveDer sp.2 with
      | none => rfl
      | some sd =>
        simp only [Option.map_some, Option.bind_some]
        rw [show derAdversarial (K := K) ⟨fun w => env.sys.step w.1, env.sys.stepMode.map fun f w => f w.1,
          env.sys.feedback⟩ (sd.2, (⟨l.pos ++ [sp.1], l.der ++ [sd.1]⟩ : Log K)) cfg.derPool cfg.only sd.1 =
          derAdversarial env.sys sd.2 cfg.derPool cfg.only sd.1 from
          logged_derAdversarial env sd.2 ⟨l.pos ++ [sp.1], l.der ++ [sd.1]⟩ cfg.derPool cfg.only sd.1]
        cases derAdversarial env.sys sd.2 cfg.derPool cfg.only sd.1 with
        | none => rfl
        | some da =>
          have e : ∀ (l' : Log K) a, perturbed (loggedAdv o).noise (sd.2, l') a =
              ((perturbed o.noise sd.2 a).1, ((perturbed o.noise sd.2 a).2, l')) := by
            intro l' a
            unfold perturbed loggedAdv
            cases o.noise <;> rfl
          simp only [Option.bind_some, e]
          split_ifs with h1 h2
          · rfl
          · simp only [loggedDescend]
            cases hd : descend (perturbed o.noise sd.2 (clustered o.radius da.1)).2
                (inPool o.posLimit (pos ++ clustered o.radius (posAdversarial cfg.posPool cfg.only sp.1)))
                (inPool o.derLimit (der ++ (perturbed o.noise sd.2 (clustered o.radius da.1)).1)) with
            | none =>
              simp only [loggedAdv] at hd ⊢
              rw [hd]
              rfl
            | some w2 =>
              simp only [loggedAdv] at hd ⊢
              rw [hd]
              exact ih _ _ _ _ _ _
          · rfl

/-- The recorded run of `train_adversarial` is the run. -/
theorem C56_adversarial_logged (env : Env W K) (cfg : TrainCfg K) (o : AdvCfg W K)
    (descend : W → Mat K → Mat K → Option W) (w : W) (l : Log K) (pos der : Mat K) :
    ((logged env).trainAdversarial cfg (loggedAdv o) (loggedDescend descend) (w, l) pos der).map
      (fun r => (r.1, r.2.1)) = env.trainAdversarial cfg o descend w pos der := by
  unfold Env.trainAdversarial
  split_ifs
  · exact logged_advLoop env cfg o descend _ _ _ _ _ _ _
  · rfl

theorem advLoop_history (env : Env W K) (cfg : TrainCfg K) (o : AdvCfg W K) (descend : W → Mat K → Mat K → Option W)
    (n : ℕ) : ∀ (w w' : W) (l l' : Log K) (pos der : Mat K) (rp rd : Vec K) (r : AdvRet K),
    (logged env).advLoop cfg (loggedAdv o) (loggedDescend descend) n (w, l) pos der rp rd = some (r, (w', l')) →
    ∃ (hist : List (Solve K × Solve K)), l'.pos = l.pos ++ hist.map Prod.fst ∧ l'.der = l.der ++ hist.map Prod.snd ∧
      hist.length ≤ n ∧ (∀ h ∈ hist.dropLast, ¬ Under cfg h.1 h.2) ∧
      (r.converged = true → ∃ w0 w1 w2 a b, hist.getLast? = some (a, b) ∧ Under cfg a b ∧
        env.solvePos w0 = some (a, w1) ∧ env.solveDer w1 = some (b, w2) ∧
        ∃ adv, w' = (perturbed o.noise w2 adv).2) ∧
      (r.converged = false → hist.length = n ∧ ∀ h ∈ hist, ¬ Under cfg h.1 h.2) ∧
      (hist = [] → r.pos = pos ∧ r.der = der) ∧
      (hist ≠ [] → r.pos = inPool o.posLimit (pos ++ posAdded cfg o (hist.map Prod.fst)) ∧
        (o.noise = none → r.der = inPool o.derLimit (der ++ derAdded cfg o (hist.map Prod.snd))) ∧
        ∃ q, r.der = inPool o.derLimit q) := by
  induction n with
  | zero =>
    intro w w' l l' pos der rp rd r h
    simp only [Env.advLoop, Option.some.injEq, Prod.mk.injEq] at h
    obtain ⟨rfl, rfl, rfl⟩ := h
    exact ⟨[], by simp, by simp, by simp, by simp, by simp, by simp, by simp, by simp⟩
  | succ n ih =>
    intro w w' l l' pos der rp rd r h
    simp only [Env.advLoop, Option.bind_eq_bind, Option.bind_eq_some_iff] at h
    obtain ⟨⟨a, w1, l1⟩, h1, ⟨b, w2, l2⟩, h2, da, h3, h⟩ := h
    simp only [logged, Option.map_eq_some_iff, Prod.mk.injEq] at h1 h2
    obtain ⟨⟨pa, pw⟩, ea, rfl, rfl, rfl⟩ := h1
    obtain ⟨⟨db, dw⟩, ed, rfl, rfl, rfl⟩ := h2
    rw [logged_derAdversarial] at h3
    have hda : da.1 = posAdversarial cfg.derPool cfg.only db := by
      simp only [derAdversarial, Option.map_eq_some_iff] at h3
      obtain ⟨_, -, rfl⟩ := h3
      rfl
    have e : ∀ (l' : Log K) a, perturbed (loggedAdv o).noise (dw, l') a =
        ((perturbed o.noise dw a).1, ((perturbed o.noise dw a).2, l')) := by
      intro l' a
      unfold perturbed loggedAdv
      cases o.noise <;> rfl
    have en : ∀ q, o.noise = none → (perturbed o.noise dw q).1 = q := fun q hq => by rw [hq]; rfl
    simp only [e] at h ea ed
    by_cases hu : pa.objVal < cfg.posTol ∧ db.objVal < cfg.derTol
    · rw [if_pos hu] at h
      simp only [Option.some.injEq, Prod.mk.injEq] at h
      obtain ⟨rfl, rfl, rfl⟩ := h
      refine ⟨[(pa, db)], by simp, by simp, by simp, by simp, fun _ => ⟨_, _, _, pa, db, rfl, hu, ea, ed, _, rfl⟩, by simp,
        by simp, fun _ => ⟨by simp [posAdded, loggedAdv], fun hq => ?_, _, rfl⟩⟩
      simp only [loggedAdv, en _ hq, hda]
      simp [derAdded]
    · rw [if_neg hu] at h
      split_ifs at h with hk
      simp only [Option.bind_eq_some_iff, loggedDescend, Option.map_eq_some_iff] at h
      obtain ⟨_, ⟨w3, hw3, rfl⟩, h⟩ := h
      obtain ⟨hist, i1, i2, i3, i4, i5, i6, i7, i8⟩ := ih _ _ _ _ _ _ _ _ _ h
      refine ⟨(pa, db) :: hist, by simp [i1], by simp [i2], by simpa using i3, ?_, ?_, ?_, by simp, fun _ => ?_⟩
      · cases hist with
        | nil => simp
        | cons c cs =>
          intro x hx
          rw [List.dropLast_cons_of_ne_nil (by simp)] at hx
          rcases List.mem_cons.1 hx with rfl | hx
          · exact hu
          · exact i4 x hx
      · intro hc
        obtain ⟨w0, w1, w2, a, b, j1, j2⟩ := i5 hc
        refine ⟨w0, w1, w2, a, b, ?_, j2⟩
        cases hist with
        | nil => simp at j1
        | cons c cs => simpa [List.getLast?_cons_cons] using j1
      · intro hc
        obtain ⟨j1, j2⟩ := i6 hc
        refine ⟨by simp [j1], fun x hx => ?_⟩
        rcases List.mem_cons.1 hx with rfl | hx
        · exact hu
        · exact j2 x hx
      · cases hist with
        | nil =>
          obtain ⟨k1, k2⟩ := i7 rfl
          refine ⟨by rw [k1]; simp [posAdded, loggedAdv], fun hq => ?_, _, k2⟩
          rw [k2]
          simp only [loggedAdv, en _ hq, hda]
          simp [derAdded]
        | cons c cs =>
          obtain ⟨k1, k2, k3⟩ := i8 (by simp)
          refine ⟨?_, fun hq => ?_, k3⟩
          · rw [k1]
            simp only [loggedAdv]
            rw [inPool_append]
            simp [posAdded]
          · rw [k2 hq]
            simp only [loggedAdv, en _ hq, hda]
            rw [inPool_append]
            simp [derAdded]

/-- C56. The whole run of `train_adversarial`: at most `max_iterations` pairs of programs are solved; `True` exactly when
the last pair is below the tolerances, no earlier one was; `False` only after `max_iterations` pairs, none of them below;
the returned positivity set is the pool (see `C56_adversarial_limit`) of the initial samples and of the kept states of all
solves, in order, and so is the derivative set when there is no perturbation. -/
theorem C56_adversarial (env : Env W K) (cfg : TrainCfg K) (o : AdvCfg W K) (descend : W → Mat K → Mat K → Option W)
    (w w' : W) (l : Log K) (pos der : Mat K) (r : AdvRet K)
    (h : (logged env).trainAdversarial cfg (loggedAdv o) (loggedDescend descend) (w, ⟨[], []⟩) pos der =
      some (r, (w', l))) :
    ∃ (hist : List (Solve K × Solve K)), l.pos = hist.map Prod.fst ∧ l.der = hist.map Prod.snd ∧
      hist.length ≤ cfg.maxIter ∧ (∀ h ∈ hist.dropLast, ¬ Under cfg h.1 h.2) ∧
      (r.converged = true ↔ ∃ a b, hist.getLast? = some (a, b) ∧ Under cfg a b) ∧
      (r.converged = false → hist.length = cfg.maxIter) ∧
      (hist ≠ [] → r.pos = inPool o.posLimit (pos ++ posAdded cfg o l.pos) ∧
        (o.noise = none → r.der = inPool o.derLimit (der ++ derAdded cfg o l.der))) := by
  unfold Env.trainAdversarial at h
  split_ifs at h
  obtain ⟨hist, i1, i2, i3, i4, i5, i6, i7, i8⟩ := advLoop_history env cfg o descend _ _ _ _ _ _ _ _ _ _ h
  simp only [List.nil_append] at i1 i2
  refine ⟨hist, i1, i2, i3, i4, ⟨fun hc => ?_, fun hc => ?_⟩, fun hc => (i6 hc).1, fun hne => ?_⟩
  · obtain ⟨_, _, _, a, b, j1, j2, -⟩ := i5 hc
    exact ⟨a, b, j1, j2⟩
  · obtain ⟨a, b, j1, j2⟩ := hc
    by_contra hcon
    have := (i6 (by simpa using hcon)).2 (a, b) (List.mem_of_getLast? j1)
    exact this j2
  · rw [i1, i2]
    exact ⟨(i8 hne).1, (i8 hne).2.1⟩

/-- C56. When `train_adversarial` returns `True`, the last programs solved had objectives below the tolerances, and only
random numbers were drawn afterwards. -/
theorem C56_adversarial_true (env : Env W K) (cfg : TrainCfg K) (o : AdvCfg W K) (descend : W → Mat K → Mat K → Option W)
    (w w' : W) (pos der : Mat K) (r : AdvRet K) (h : env.trainAdversarial cfg o descend w pos der = some (r, w'))
    (hr : r.converged = true) :
    ∃ w0 w1 w2 a b, env.solvePos w0 = some (a, w1) ∧ env.solveDer w1 = some (b, w2) ∧ a.objVal < cfg.posTol ∧
      b.objVal < cfg.derTol ∧ ∃ adv, w' = (perturbed o.noise w2 adv).2 := by
  rw [← C56_adversarial_logged env cfg o descend w ⟨[], []⟩] at h
  simp only [Option.map_eq_some_iff, Prod.mk.injEq] at h
  obtain ⟨⟨r', w'', l⟩, h, rfl, rfl⟩ := h
  unfold Env.trainAdversarial at h
  split_ifs at h
  obtain ⟨hist, i1, i2, i3, i4, i5, i6, i7, i8⟩ := advLoop_history env cfg o descend _ _ _ _ _ _ _ _ _ _ h
  obtain ⟨w0, w1, w2, a, b, j1, j2, j3, j4, j5⟩ := i5 hr
  exact ⟨w0, w1, w2, a, b, j3, j4, j2.1, j2.2, j5⟩

/-- C56. With positive limits and at least one iteration, the returned sets do not exceed the limits and contain the
latest samples. -/
theorem C56_adversarial_limit (env : Env W K) (cfg : TrainCfg K) (o : AdvCfg W K)
    (descend : W → Mat K → Mat K → Option W) (w w' : W) (pos der : Mat K) (r : AdvRet K)
    (h : env.trainAdversarial cfg o descend w pos der = some (r, w')) (hm : cfg.maxIter ≠ 0) :
    (o.posLimit ≠ 0 → r.pos.length ≤ o.posLimit ∧ ∃ adv, r.pos = lastN o.posLimit (pos ++ adv)) ∧
    (o.derLimit ≠ 0 → r.der.length ≤ o.derLimit) := by
  rw [← C56_adversarial_logged env cfg o descend w ⟨[], []⟩] at h
  simp only [Option.map_eq_some_iff, Prod.mk.injEq] at h
  obtain ⟨⟨r', w'', l⟩, h, rfl, rfl⟩ := h
  unfold Env.trainAdversarial at h
  split_ifs at h
  obtain ⟨hist, i1, i2, i3, i4, i5, i6, i7, i8⟩ := advLoop_history env cfg o descend _ _ _ _ _ _ _ _ _ _ h
  have hne : hist ≠ [] := by
    rintro rfl
    cases hc : r'.converged with
    | true =>
      obtain ⟨_, _, _, a, b, j1, -⟩ := i5 hc
      simp at j1
    | false => exact hm (i6 hc).1.symm
  obtain ⟨k1, -, q, k3⟩ := i8 hne
  refine ⟨fun h0 => ?_, fun h0 => ?_⟩
  · rw [k1, inPool_pos h0]
    exact ⟨length_lastN _ _, _, rfl⟩
  · rw [k3, inPool_pos h0]
    exact length_lastN _ _

/-- The limit 0 does not bound the set (`samples[-0:]` is all of them): nothing is ever dropped. -/
theorem C56_adversarial_zero_limit (env : Env W K) (cfg : TrainCfg K) (o : AdvCfg W K)
    (descend : W → Mat K → Mat K → Option W) (w w' : W) (l : Log K) (pos der : Mat K) (r : AdvRet K)
    (h : (logged env).trainAdversarial cfg (loggedAdv o) (loggedDescend descend) (w, ⟨[], []⟩) pos der =
      some (r, (w', l))) (h0 : o.posLimit = 0) : r.pos = pos ++ posAdded cfg o l.pos := by
  unfold Env.trainAdversarial at h
  split_ifs at h
  obtain ⟨hist, i1, i2, i3, i4, i5, i6, i7, i8⟩ := advLoop_history env cfg o descend _ _ _ _ _ _ _ _ _ _ h
  simp only [List.nil_append] at i1
  rw [i1]
  by_cases hne : hist = []
  · subst hne
    simp [(i7 rfl).1, posAdded]
  · rw [(i8 hne).1, h0, inPool_zero]

/-! ### What a successful run certifies -/

/-- The solver solves the two programs of the current Lyapunov function, and `ObjVal` is an upper bound of the objective,
unless the early termination callback (threshold `tP`, `tD`) stopped it with an objective above the threshold. Solving
does not change the networks. -/
structure Solves (env : Env W K) (lyap : W → Lyap K) (Rw : W → Option (Tensor2 K)) (sys : W → SysConstr K) (xe : Vec K)
    (lam eps1 eps2 : K) (et : EpsType) (tP tD : Option K) : Prop where
  pos : ∀ w s w', env.solvePos w = some (s, w') → lyap w' = lyap w ∧ Rw w' = Rw w ∧ sys w' = sys w ∧
    ∃ m x, (lyap w).positivity xe lam eps1 (Rw w) = some (m, x) ∧
      ((∀ v, m.Feas v → m.objVal v ≤ s.objVal) ∨ ∃ t, tP = some t ∧ t < s.objVal)
  der : ∀ w s w', env.solveDer w = some (s, w') → lyap w' = lyap w ∧ Rw w' = Rw w ∧ sys w' = sys w ∧
    ∃ D, (lyap w).derivative (sys w) xe lam eps2 et (Rw w) none none .binary = some D ∧
      ((∀ v, D.m.Feas v → D.m.objVal v ≤ s.objVal) ∨ ∃ t, tD = some t ∧ t < s.objVal)

/-- What is certified: the positivity and the derivative condition on the whole box, up to the tolerances. -/
def Certificate (L : Lyap K) (R' : Mat K) (Rel : Vec K → Vec K → Prop) (xe : Vec K) (lam eps1 eps2 : K) (et : EpsType)
    (a b : K) : Prop :=
  (∀ y, InBox L.xLo L.xUp y → eps1 * err R' xe y ≤ lyapV L.net R' lam xe y + a) ∧
  ∀ y yn, InBox L.xLo L.xUp y → InBox L.xLo L.xUp yn → Rel y yn →
    decrease et eps2 (lyapV L.net R' lam xe yn) (lyapV L.net R' lam xe y) (err R' xe y) ≤ b

theorem certificate_of_solves {env : Env W K} {lyap : W → Lyap K} {Rw : W → Option (Tensor2 K)} {sys : W → SysConstr K}
    {xe : Vec K} {lam eps1 eps2 : K} {et : EpsType} {tP tD : Option K}
    (hs : Solves env lyap Rw sys xe lam eps1 eps2 et tP tD) {w0 w1 w2 : W} {a b : Solve K} {c d : K}
    (h1 : env.solvePos w0 = some (a, w1)) (h2 : env.solveDer w1 = some (b, w2)) (hc : a.objVal ≤ c) (hd : b.objVal ≤ d)
    (htP : ∀ t, tP = some t → c ≤ t) (htD : ∀ t, tD = some t → d ≤ t)
    (hL : (lyap w2).NetOk) {R' : Mat K} (hE : (lyap w2).EqOk (Rw w2) R' xe) {Rel : Vec K → Vec K → Prop}
    (hsys : SysEnc (sys w2) (lyap w2).dim Rel Rel) : Certificate (lyap w2) R' Rel xe lam eps1 eps2 et c d := by
  obtain ⟨p1, p2, p3, m, x, p4, p5⟩ := hs.pos _ _ _ h1
  obtain ⟨d1, d2, d3, D, d4, d5⟩ := hs.der _ _ _ h2
  rw [← p1, ← p2, ← d1, ← d2] at p4
  rw [← d1, ← d2, ← d3] at d4
  have p6 : ∀ v, m.Feas v → m.objVal v ≤ a.objVal := by
    rcases p5 with p5 | ⟨t, ht, hlt⟩
    · exact p5
    · exact absurd (hc.trans (htP t ht)) (not_le.2 hlt)
  have d6 : ∀ v, D.m.Feas v → D.m.objVal v ≤ b.objVal := by
    rcases d5 with d5 | ⟨t, ht, hlt⟩
    · exact d5
    · exact absurd (hd.trans (htD t ht)) (not_le.2 hlt)
  obtain ⟨m', x', e, -, -, s, co⟩ := C32_program (lyap w2) hL hE lam eps1
  rw [e] at p4
  cases p4
  obtain ⟨D', e', -, -, -, s', co'⟩ := C33_program (lyap w2) hL hE lam eps2 et none none hsys
  rw [e'] at d4
  cases d4
  constructor
  · intro y hy
    obtain ⟨v, hv, rfl⟩ := co y hy
    have := (p6 v hv).trans hc
    rw [(s v hv).2] at this
    linarith
  · intro y yn hy hyn hR
    obtain ⟨v, hv, rfl, rfl⟩ := co' y yn hy hyn hR (by simp [Between])
    have := (d6 v hv).trans hd
    rw [(s' v hv).2.2.2.2.2.2] at this
    exact this

/-- C56, the meaning of `True`: the Lyapunov function that the process holds at the return satisfies both conditions on
the whole box, up to the tolerances. -/
theorem C56_train_certificate (env : Env W K) (cfg : TrainCfg K) {cp cd : K} (hp : cfg.posMipW = some cp)
    (hd : cfg.derMipW = some cd) {lyap : W → Lyap K} {Rw : W → Option (Tensor2 K)} {sys : W → SysConstr K}
    {xe : Vec K} {lam eps1 eps2 : K} {et : EpsType} {tP tD : Option K}
    (hs : Solves env lyap Rw sys xe lam eps1 eps2 et tP tD)
    (htP : ∀ t, tP = some t → cfg.posTol ≤ t) (htD : ∀ t, tD = some t → cfg.derTol ≤ t)
    (w w' : W) (samples : Mat K) (r : TrainRet K) (h : env.train cfg w samples = some (r, w'))
    (hr : r.converged = true) (hL : (lyap w').NetOk) {R' : Mat K} (hE : (lyap w').EqOk (Rw w') R' xe)
    {Rel : Vec K → Vec K → Prop} (hsys : SysEnc (sys w') (lyap w').dim Rel Rel) :
    Certificate (lyap w') R' Rel xe lam eps1 eps2 et cfg.posTol cfg.derTol := by
  obtain ⟨w0, w1, a, b, e1, e2, -, -, e3, e4⟩ := C56_train_true env cfg hp hd w w' samples r h hr
  exact certificate_of_solves hs e1 e2 e3 e4 htP htD hL hE hsys

/-- The same for `train_adversarial`, when drawing random numbers does not change the networks. -/
theorem C56_adversarial_certificate (env : Env W K) (cfg : TrainCfg K) (o : AdvCfg W K)
    (descend : W → Mat K → Mat K → Option W) {lyap : W → Lyap K} {Rw : W → Option (Tensor2 K)} {sys : W → SysConstr K}
    {xe : Vec K} {lam eps1 eps2 : K} {et : EpsType} {tP tD : Option K}
    (hs : Solves env lyap Rw sys xe lam eps1 eps2 et tP tD)
    (hn : ∀ f, o.noise = some f → ∀ w a, lyap (f w a).2 = lyap w ∧ Rw (f w a).2 = Rw w ∧ sys (f w a).2 = sys w)
    (htP : ∀ t, tP = some t → cfg.posTol ≤ t) (htD : ∀ t, tD = some t → cfg.derTol ≤ t)
    (w w' : W) (pos der : Mat K) (r : AdvRet K) (h : env.trainAdversarial cfg o descend w pos der = some (r, w'))
    (hr : r.converged = true) (hL : (lyap w').NetOk) {R' : Mat K} (hE : (lyap w').EqOk (Rw w') R' xe)
    {Rel : Vec K → Vec K → Prop} (hsys : SysEnc (sys w') (lyap w').dim Rel Rel) :
    Certificate (lyap w') R' Rel xe lam eps1 eps2 et cfg.posTol cfg.derTol := by
  obtain ⟨w0, w1, w2, a, b, e1, e2, e3, e4, adv, rfl⟩ := C56_adversarial_true env cfg o descend w w' pos der r h hr
  have hk : lyap (perturbed o.noise w2 adv).2 = lyap w2 ∧ Rw (perturbed o.noise w2 adv).2 = Rw w2 ∧
      sys (perturbed o.noise w2 adv).2 = sys w2 := by
    unfold perturbed
    cases ho : o.noise with
    | none => exact ⟨rfl, rfl, rfl⟩
    | some f => exact hn f ho _ _
  obtain ⟨k1, k2, k3⟩ := hk
  rw [k1] at hL hE hsys ⊢
  rw [k2] at hE
  rw [k3] at hsys
  exact certificate_of_solves hs e1 e2 e3.le e4.le htP htD hL hE hsys

/-- A process without state whose two programs have the objectives `p` and `d`. -/
noncomputable def exEnv (p d : ℝ) : Env Unit ℝ where
  sys := ⟨fun _ x => some (matVec [[1 / 2]] x), none, false⟩
  solvePos := fun _ => some (⟨p, []⟩, ())
  solveDer := fun _ => some (⟨d, []⟩, ())
  posMipObj := fun _ => some 0
  derMipObj := fun _ => some 0
  gap := fun _ => some 0
  posLoss := fun _ _ => 0
  derLoss := fun _ _ _ => 0
  update := fun _ _ => ()

/-- Settings of the examples. -/
noncomputable def exCfg : TrainCfg ℝ where
  posPool := 1
  derPool := 1
  only := true
  maxIter := 3
  posTol := 0
  derTol := 0
  addPos := true
  addDer := true
  maxPool := 2
  posW := 1
  derW := 1
  posMipW := some 1
  derMipW := some 1
  gapW := 0
  optKnown := true

theorem exEnv_train (p d : ℝ) (hp : p ≤ 0) (hd : d ≤ 0) :
    ∃ r, (exEnv p d).train exCfg () [[1 / 2]] = some (r, ()) ∧ r.converged = true := by
  refine ⟨⟨true, 0, some p, some d⟩, ?_, rfl⟩
  simp [Env.train, exEnv, exCfg, TrainSys.stepAll, Env.trainLoop, refreshNext, Env.totalLoss, optSolve, mipLoss, gapLoss,
    enlargeDer, enlargePos, derAdversarial, derNext, keptSols, Env.sampleLoss, bothWithin, leNone, hp, hd]

theorem exEnv_solves (eps1 p : ℝ) (tP : Option ℝ)
    (h : (∀ y, InBox absLyap.xLo absLyap.xUp y → eps1 * err (eye 1) [0] y ≤
      lyapV absLyap.net (eye 1) (1 / 2) [0] y + p) ∨ ∃ t, tP = some t ∧ t < p) :
    Solves (exEnv p 0) (fun _ => absLyap) (fun _ => none) (fun _ => linSys 1 [[1 / 2]]) [0] (1 / 2) eps1 (1 / 10)
      .expLower tP none := by
  constructor
  · intro w s w' hs
    simp only [exEnv, Option.some.injEq, Prod.mk.injEq] at hs
    obtain ⟨rfl, -⟩ := hs
    obtain ⟨m, xv, e, -, -, s, -⟩ := C32_program absLyap absLyap_ok absEq_ok (1 / 2) eps1
    refine ⟨rfl, rfl, rfl, m, xv, e, h.imp (fun h v hv => ?_) id⟩
    have := h _ (s v hv).1
    rw [(s v hv).2]
    linarith
  · intro w s w' hs
    simp only [exEnv, Option.some.injEq, Prod.mk.injEq] at hs
    obtain ⟨rfl, -⟩ := hs
    obtain ⟨m, xv, D, -, -, e', o'⟩ := abs_programs
    exact ⟨rfl, rfl, rfl, D, e', Or.inl o'⟩

/-- The hypotheses of `C56_train_certificate` hold for a run that succeeds; its conclusion is the certificate. -/
example : Certificate absLyap (eye 1) (fun y yn => yn = matVec [[1 / 2]] y) [0] (1 / 2) (1 / 4) (1 / 10) .expLower 0 0 := by
  obtain ⟨r, hr, hc⟩ := exEnv_train 0 0 le_rfl le_rfl
  have hs := exEnv_solves (1 / 4) 0 none (Or.inl fun y hy => by
    obtain ⟨a, rfl⟩ := singleton_of_inBox hy
    rw [abs_V, abs_err]
    linarith [abs_nonneg a])
  exact C56_train_certificate (exEnv 0 0) exCfg rfl rfl hs (by simp) (by simp) () () [[1 / 2]] r hr hc absLyap_ok absEq_ok
    absSys_enc

/-- With an early termination threshold below the tolerance, `True` does not certify the conditions: a solver that stops
at the first incumbent above the threshold `-1` lets `train` succeed although a state of the box violates the positivity
condition. -/
theorem C56_early_termination_counterexample : ∃ r,
    Solves (exEnv (-1 / 2) 0) (fun _ => absLyap) (fun _ => none) (fun _ => linSys 1 [[1 / 2]]) [0] (1 / 2) 2 (1 / 10)
      .expLower (some (-1)) none ∧
    (exEnv (-1 / 2) 0).train exCfg () [[1 / 2]] = some (r, ()) ∧ r.converged = true ∧
    ¬ Certificate absLyap (eye 1) (fun y yn => yn = matVec [[1 / 2]] y) [0] (1 / 2) 2 (1 / 10) .expLower exCfg.posTol
      exCfg.derTol := by
  obtain ⟨r, hr, hc⟩ := exEnv_train (-1 / 2) 0 (by norm_num) le_rfl
  refine ⟨r, exEnv_solves 2 (-1 / 2) (some (-1)) (Or.inr ⟨_, rfl, by norm_num⟩), hr, hc, fun h => ?_⟩
  have := h.1 [1] ⟨rfl, rfl, fun i hi => by
    have : i < 1 := hi
    interval_cases i
    norm_num [absLyap]⟩
  rw [abs_V, abs_err] at this
  norm_num [exCfg] at this

/-- With zero tolerances, a successful run proves that every trajectory that stays in the box converges. -/
theorem C56_train_convergence {W : Type} (env : Env W ℝ) (cfg : TrainCfg ℝ) {cp cd : ℝ} (hp : cfg.posMipW = some cp)
    (hd : cfg.derMipW = some cd) (hp0 : cfg.posTol ≤ 0) (hd0 : cfg.derTol ≤ 0) {lyap : W → Lyap ℝ}
    {Rw : W → Option (Tensor2 ℝ)} {sys : W → SysConstr ℝ} {xe : Vec ℝ} {lam eps1 eps2 : ℝ}
    (hs : Solves env lyap Rw sys xe lam eps1 eps2 .expLower none none) (he1 : 0 < eps1) (he2 : 0 < eps2) (he3 : eps2 ≤ 1)
    (w w' : W) (samples : Mat ℝ) (r : TrainRet ℝ) (h : env.train cfg w samples = some (r, w'))
    (hr : r.converged = true) (hL : (lyap w').NetOk) {R' : Mat ℝ} (hE : (lyap w').EqOk (Rw w') R' xe)
    {Rel : Vec ℝ → Vec ℝ → Prop} (hsys : SysEnc (sys w') (lyap w').dim Rel Rel) (x : ℕ → Vec ℝ) (hx : Traj Rel x)
    (hbox : ∀ n, InBox (lyap w').xLo (lyap w').xUp (x n)) :
    Filter.Tendsto (fun n => err R' xe (x n)) Filter.atTop (nhds 0) := by
  obtain ⟨c1, c2⟩ := C56_train_certificate env cfg hp hd hs (by simp) (by simp) w w' samples r h hr hL hE hsys
  obtain ⟨m, xv, e, -⟩ := C32_program (lyap w') hL hE lam eps1
  obtain ⟨D, e', -⟩ := C33_program (lyap w') hL hE lam eps2 .expLower none none hsys
  refine C34_exponential_tendsto (lyap w') hL hE lam eps1 eps2 hsys e
    ((C32_verdict (lyap w') hL hE lam eps1 e).2 fun y hy => ?_) e'
    ((C33_verdict (lyap w') hL hE lam eps2 .expLower none none hsys e').2 fun y yn a b c _ => (c2 y yn a b c).trans hd0)
    he1 he2 he3 x hx hbox
  linarith [c1 y hy]

/-- A process that counts the updates; the objectives fall with every update. -/
def countEnv : Env ℕ ℚ where
  sys := ⟨fun _ x => some (x.map (· / 2)), none, true⟩
  solvePos := fun w => some (⟨1 - w, [⟨[1 / 2 + w], [], 1 - w⟩]⟩, w)
  solveDer := fun w => some (⟨3 - 2 * w, [⟨[1 / 4 + w], [], 3 - 2 * w⟩, ⟨[-w], [], 2 - 2 * w⟩]⟩, w)
  posMipObj := fun w => some (1 - w)
  derMipObj := fun w => some (3 - 2 * w)
  gap := fun _ => some 0
  posLoss := fun _ x => x.length
  derLoss := fun _ x _ => x.length
  update := fun w _ => w + 1

/-- Settings of the examples. -/
def countCfg : TrainCfg ℚ where
  posPool := 2
  derPool := 2
  only := true
  maxIter := 5
  posTol := 1 / 10
  derTol := 1 / 10
  addPos := true
  addDer := true
  maxPool := 3
  posW := 1
  derW := 1
  posMipW := some 1
  derMipW := some 1
  gapW := 1
  optKnown := true

/-- `train` succeeds in the third iteration (so the hypotheses of `C56_train` hold with `pre.length = 2`). -/
example : (((logged countEnv).train countCfg (0, ⟨[], []⟩) [[1], [2]]).map fun r =>
    (r.1.converged, r.1.posObj, r.1.derObj, r.2.1, r.2.2.pos.length)) = some (true, some (-1), some (-1), 2, 3) := by
  decide +kernel

/-- With two iterations it returns `False`. -/
example : (((logged countEnv).train { countCfg with maxIter := 2 } (0, ⟨[], []⟩) [[1], [2]]).map fun r =>
    (r.1.converged, r.1.posObj, r.1.derObj, r.2.1, r.2.2.pos.length)) = some (false, some 0, some 1, 2, 2) := by
  decide +kernel

/-- `train_adversarial` succeeds in the third iteration; the derivative pool has dropped the oldest sample. -/
example : (((logged countEnv).trainAdversarial countCfg (loggedAdv ⟨3, 3, none, none⟩)
    (loggedDescend fun w _ _ => some (w + 1)) (0, ⟨[], []⟩) [[1]] [[2]]).map fun r =>
    (r.1.converged, r.1.pos, r.1.der, r.2.2.pos.length)) =
    some (true, [[1], [1 / 2]], [[1 / 4], [0], [5 / 4]], 3) := by
  decide +kernel

/-- With the limit 0 the pool of one state grows. -/
example : ((countEnv.trainAdversarial countCfg ⟨0, 1, none, none⟩ (fun w _ _ => some (w + 1)) 0 [[1]] [[2]]).map fun r =>
    (r.1.converged, r.1.pos, r.1.der)) = some (true, [[1], [1 / 2]], [[5 / 4]]) := by
  decide +kernel

end NNL.Props
