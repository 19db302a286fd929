import Verif.Spec.DynTrain
import Mathlib.Tactic.Ring
import Mathlib.Tactic.Linarith

/-!
C111: `DynamicsLearning.train`, with interrupts at any point.
-/

namespace NNL.Props

open NNL NNL.Model NNL.Spec

set_option linter.unusedSectionVars false

variable {W B K : Type}

theorem stepsOf_append (a b : List (DynEv W B K)) : stepsOf (a ++ b) = stepsOf a ++ stepsOf b := List.filterMap_append
theorem programsOf_append (a b : List (DynEv W B K)) : programsOf (a ++ b) = programsOf a ++ programsOf b :=
  List.filterMap_append
theorem savesOf_append (a b : List (DynEv W B K)) : savesOf (a ++ b) = savesOf a ++ savesOf b := List.filterMap_append

/-- The outcome satisfies `P` if finished, `Q` if interrupted, `E` after another exception. -/
def DynPost {S : Type} (P Q E : S → Prop) : DynOut S → Prop
  | .ok s => P s
  | .interrupted s => Q s
  | .error s => E s

theorem DynPost.bind {S : Type} {P P' Q E : S → Prop} {o : DynOut S} {f : S → DynOut S} (h : DynPost P Q E o)
    (hf : ∀ s, P s → DynPost P' Q E (f s)) : DynPost P' Q E (o.bind f) := by
  cases o with
  | ok s => exact hf s h
  | interrupted s => exact h
  | error s => exact h

theorem DynPost.mono {S : Type} {P P' Q Q' E E' : S → Prop} {o : DynOut S} (h : DynPost P Q E o) (h1 : ∀ s, P s → P' s)
    (h2 : ∀ s, Q s → Q' s) (h3 : ∀ s, E s → E' s) : DynPost P' Q' E' o := by
  cases o with
  | ok s => exact h1 s h
  | interrupted s => exact h2 s h
  | error s => exact h3 s h

/-- An action: the interrupt only comes if there is one in the budget. -/
theorem atomic_post (f : DynSt W B K → Option (DynSt W B K)) (s : DynSt W B K) :
    DynPost (fun t => ∃ bd, (s.budget = none → bd = none) ∧ f { s with budget := bd } = some t)
      (fun t => t = s ∧ s.budget ≠ none) (fun t => t = s) (atomic f s) := by
  unfold atomic
  split
  · rename_i h
    exact ⟨rfl, by simp [h]⟩
  · split
    · rename_i h1 t h2
      exact ⟨_, fun h => by simp [h], h2⟩
    · rfl

/-- The state is that before or in the middle of a batch. -/
def Mid (freq : ℕ) (all : List B) (s r : DynSt W B K) : Prop :=
  ∃ m j k, m ≤ j ∧ j ≤ k ∧ k ≤ m + 1 ∧ k ≤ all.length ∧ Did freq all s r m j k

theorem did_comp {freq : ℕ} {as bs : List B} {s t r : DynSt W B K} {m j k : ℕ}
    (h1 : Did freq as s t as.length as.length as.length) (h2 : Did freq bs t r m j k) :
    Did freq (as ++ bs) s r (as.length + m) (as.length + j) (as.length + k) := by
  constructor
  · rw [h2.iter, h1.iter, Nat.add_assoc]
  · rw [h2.steps, h1.steps, h1.iter, List.take_length_add_append, List.take_length, List.zipIdx_append, List.append_assoc]
  · rw [h2.programs, h1.programs, h1.iter, List.append_assoc, ← List.filter_append]
    congr 2
    have := List.range'_append (s := s.nIter) (m := as.length) (n := j) (step := 1)
    simpa only [Nat.one_mul] using this

theorem did_nil {freq : ℕ} (s r : DynSt W B K) (h1 : r.nIter = s.nIter) (h2 : stepsOf r.trace = stepsOf s.trace)
    (h3 : programsOf r.trace = programsOf s.trace) : Did freq [] s r 0 0 0 :=
  ⟨h1, by simp [h2], by simp [h3]⟩

theorem Mid.comp {freq : ℕ} {as bs : List B} {s t r : DynSt W B K}
    (h1 : Did freq as s t as.length as.length as.length) (h2 : Mid freq bs t r) : Mid freq (as ++ bs) s r := by
  obtain ⟨m, j, k, a, b, c, d, h⟩ := h2
  exact ⟨_, _, _, by omega, by omega, by omega, by rw [List.length_append]; omega, did_comp h1 h⟩

theorem Mid.append {freq : ℕ} {as : List B} {s r : DynSt W B K} (h : Mid freq as s r) (bs : List B) :
    Mid freq (as ++ bs) s r := by
  obtain ⟨m, j, k, a, b, c, d, h⟩ := h
  refine ⟨m, j, k, a, b, c, by rw [List.length_append]; omega, h.iter, ?_, h.programs⟩
  rw [h.steps, List.take_append_of_le_length d]

/-- What is asked of a piece of the program that handles the batches `all` and saves `c` times. -/
def Runs (freq : ℕ) (all : List B) (c : ℕ) (s : DynSt W B K) (o : DynOut (DynSt W B K)) : Prop :=
  DynPost
    (fun r => Did freq all s r all.length all.length all.length ∧
      (savesOf r.trace).length = (savesOf s.trace).length + c ∧ (s.budget = none → r.budget = none))
    (fun r => Mid freq all s r ∧ s.budget ≠ none) (fun r => Mid freq all s r) o

theorem Runs.bind {freq : ℕ} {as bs : List B} {c c' : ℕ} {s : DynSt W B K} {o : DynOut (DynSt W B K)}
    {f : DynSt W B K → DynOut (DynSt W B K)} (h : Runs freq as c s o) (hf : ∀ t, Runs freq bs c' t (f t)) :
    Runs freq (as ++ bs) (c + c') s (o.bind f) := by
  refine DynPost.bind (P := fun r => Did freq as s r as.length as.length as.length ∧
      (savesOf r.trace).length = (savesOf s.trace).length + c ∧ (s.budget = none → r.budget = none))
    (h.mono (fun _ h => h) (fun r h => ⟨h.1.append bs, h.2⟩) (fun r h => h.append bs)) ?_
  intro t ht
  refine (hf t).mono ?_ ?_ ?_
  · intro r hr
    refine ⟨?_, ?_, fun e => hr.2.2 (ht.2.2 e)⟩
    · have := did_comp ht.1 hr.1
      rwa [← List.length_append] at this
    · rw [hr.2.1, ht.2.1, Nat.add_assoc]
  · intro r hr
    exact ⟨Mid.comp ht.1 hr.1, fun e => hr.2 (ht.2.2 e)⟩
  · intro r hr
    exact Mid.comp ht.1 hr

theorem mid_refl (freq : ℕ) (all : List B) (s : DynSt W B K) : Mid freq all s s :=
  ⟨0, 0, 0, le_rfl, le_rfl, by omega, by omega, ⟨rfl, by simp, by simp⟩⟩

theorem runs_ok (freq : ℕ) (s : DynSt W B K) : Runs freq ([] : List B) 0 s (.ok s) :=
  ⟨did_nil s s rfl rfl rfl, rfl, id⟩

/-- An action that changes neither the counter nor the steps logged. -/
theorem runs_atomic (freq : ℕ) (c : ℕ) (f : DynSt W B K → Option (DynSt W B K))
    (hf : ∀ s r, f s = some r → r.nIter = s.nIter ∧ r.budget = s.budget ∧ stepsOf r.trace = stepsOf s.trace ∧
      programsOf r.trace = programsOf s.trace ∧ (savesOf r.trace).length = (savesOf s.trace).length + c)
    (s : DynSt W B K) : Runs freq ([] : List B) c s (atomic f s) := by
  refine (atomic_post f s).mono ?_ ?_ ?_
  · rintro r ⟨bd, hb, h⟩
    obtain ⟨h1, h2, h3, h4, h5⟩ := hf _ _ h
    exact ⟨did_nil s r h1 h3 h4, h5, fun e => h2.trans (hb e)⟩
  · rintro r ⟨rfl, h⟩
    exact ⟨mid_refl _ _ _, h⟩
  · rintro r rfl
    exact mid_refl _ _ _

theorem due_iff (freq n : ℕ) : (freq > 0 ∧ n % freq = 0) ↔ Due freq n := by
  unfold Due
  rw [Nat.dvd_iff_mod_eq_zero]

theorem runs_batch (env : DynEnv W B K) (cfg : DynTrainCfg B) (b : B) (s : DynSt W B K) :
    Runs cfg.lyapLossFreq [b] 0 s (trainBatch env cfg b s) := by
  set fr := cfg.lyapLossFreq with hfr
  unfold trainBatch
  -- after the step on the losses of the batch
  refine DynPost.bind (P := fun t => t.nIter = s.nIter ∧ stepsOf t.trace = stepsOf s.trace ++ [(b, s.nIter)] ∧
    programsOf t.trace = programsOf s.trace ∧ savesOf t.trace = savesOf s.trace ∧ (s.budget = none → t.budget = none))
    ((atomic_post _ s).mono ?_ ?_ ?_) ?_
  · rintro r ⟨bd, hb, h⟩
    obtain ⟨w, -, rfl⟩ := Option.map_eq_some_iff.1 h
    refine ⟨rfl, ?_, ?_, ?_, hb⟩
    · rw [stepsOf_append]; rfl
    · rw [programsOf_append]; exact List.append_nil _
    · rw [savesOf_append]; exact List.append_nil _
  · rintro r ⟨rfl, h⟩
    exact ⟨mid_refl _ _ _, h⟩
  · rintro r rfl
    exact mid_refl _ _ _
  intro t ⟨t1, t2, t3, t4, t5⟩
  have hmid : Mid fr [b] s t := ⟨0, 0, 1, le_rfl, by omega, by omega, by simp,
    ⟨t1, by rw [t2]; rfl, by simp [t3]⟩⟩
  -- after the programs
  refine DynPost.bind (P := fun u => u.nIter = s.nIter ∧ stepsOf u.trace = stepsOf s.trace ++ [(b, s.nIter)] ∧
    programsOf u.trace = programsOf s.trace ++ [s.nIter].filter (Due fr ·) ∧ savesOf u.trace = savesOf s.trace ∧
    (s.budget = none → u.budget = none)) ?_ ?_
  · split
    · rename_i hd
      rw [due_iff, t1] at hd
      refine (atomic_post _ t).mono ?_ ?_ ?_
      · rintro r ⟨bd, hb, h⟩
        unfold doProgram at h
        obtain ⟨l, -, h⟩ := Option.bind_eq_some_iff.1 h
        obtain ⟨w, -, h⟩ := Option.bind_eq_some_iff.1 h
        cases h
        refine ⟨t1, ?_, ?_, ?_, fun e => hb (t5 e)⟩
        · rw [stepsOf_append, ← t2]; exact List.append_nil _
        · rw [programsOf_append, t3, List.filter_cons_of_pos (by simpa using hd)]
          show _ ++ [t.nIter] = _
          rw [t1]; rfl
        · rw [savesOf_append, ← t4]; exact List.append_nil _
      · rintro r ⟨rfl, h⟩
        exact ⟨hmid, fun e => h (t5 e)⟩
      · rintro r rfl
        exact hmid
    · rename_i hd
      rw [due_iff, t1] at hd
      refine ⟨t1, t2, ?_, t4, t5⟩
      rw [t3, List.filter_cons_of_neg (by simpa using hd)]
      simp
  intro u ⟨u1, u2, u3, u4, u5⟩
  refine (atomic_post _ u).mono ?_ ?_ ?_
  · rintro r ⟨bd, hb, h⟩
    cases h
    refine ⟨⟨?_, ?_, ?_⟩, ?_, fun e => hb (u5 e)⟩
    · show u.nIter + 1 = _
      rw [u1]; rfl
    · show stepsOf u.trace = _
      rw [u2]; rfl
    · show programsOf u.trace = _
      rw [u3]; rfl
    · show (savesOf u.trace).length = _
      rw [u4]; rfl
  · rintro r ⟨rfl, h⟩
    exact ⟨⟨0, 1, 1, by omega, le_rfl, by omega, by simp, ⟨u1, by rw [u2]; rfl, by rw [u3]; rfl⟩⟩, fun e => h (u5 e)⟩
  · rintro r rfl
    exact ⟨0, 1, 1, by omega, le_rfl, by omega, by simp, ⟨u1, by rw [u2]; rfl, by rw [u3]; rfl⟩⟩

theorem runs_batches (env : DynEnv W B K) (cfg : DynTrainCfg B) (bs : List B) (s : DynSt W B K) :
    Runs cfg.lyapLossFreq bs 0 s (DynOut.foldl (trainBatch env cfg) bs s) := by
  induction bs generalizing s with
  | nil => exact runs_ok _ s
  | cons b bs ih => exact (runs_batch env cfg b s).bind ih

variable [Field K]

/-- The number of saves of epoch `e`. -/
def epochSaves (cfg : DynTrainCfg B) (e : ℕ) : ℕ := if 0 < cfg.saveRate ∧ cfg.saveRate ∣ e then 1 else 0

theorem runs_epoch (env : DynEnv W B K) (cfg : DynTrainCfg B) (e : ℕ) (s : DynSt W B K) :
    Runs cfg.lyapLossFreq (cfg.trainBatches e) (epochSaves cfg e) s (trainEpoch env cfg e s) := by
  unfold trainEpoch
  have h := (runs_batches env cfg (cfg.trainBatches e) s).bind (bs := []) (c' := epochSaves cfg e) (f := fun s =>
    (if cfg.validate then atomic (doValidate env cfg) s else .ok s).bind fun s =>
      if cfg.saveRate > 0 ∧ e % cfg.saveRate = 0 then
        if cfg.savePath then atomic (fun s => some (doSave s)) s else .error s
      else .ok s) ?_
  · simpa using h
  intro t
  have h2 : Runs cfg.lyapLossFreq ([] : List B) 0 t (if cfg.validate then atomic (doValidate env cfg) t else .ok t) := by
    split
    · refine runs_atomic _ 0 _ ?_ t
      intro s r h
      unfold doValidate at h
      split at h
      · cases h
      · obtain ⟨a, -, h⟩ := Option.bind_eq_some_iff.1 h
        cases h
        refine ⟨rfl, rfl, ?_, ?_, ?_⟩
        · rw [stepsOf_append]; exact List.append_nil _
        · rw [programsOf_append]; exact List.append_nil _
        · rw [savesOf_append]; simp [savesOf]
    · exact runs_ok _ t
  have h3 := h2.bind (bs := []) (c' := epochSaves cfg e) (f := fun s =>
      if cfg.saveRate > 0 ∧ e % cfg.saveRate = 0 then
        if cfg.savePath then atomic (fun s => some (doSave s)) s else .error s
      else .ok s) ?_
  · simpa using h3
  intro u
  unfold epochSaves
  by_cases hd : Due cfg.saveRate e
  · rw [if_pos ((due_iff _ _).2 hd), if_pos (show 0 < cfg.saveRate ∧ cfg.saveRate ∣ e from hd)]
    split
    · refine runs_atomic _ 1 _ ?_ u
      intro s r h
      cases h
      refine ⟨rfl, rfl, ?_, ?_, ?_⟩
      · exact (stepsOf_append _ _).trans (List.append_nil _)
      · exact (programsOf_append _ _).trans (List.append_nil _)
      · show (savesOf (s.trace ++ [.saved s.w])).length = _
        rw [savesOf_append]; simp [savesOf]
    · exact mid_refl _ _ _
  · rw [if_neg (fun h => hd ((due_iff _ _).1 h)), if_neg (show ¬ (0 < cfg.saveRate ∧ cfg.saveRate ∣ e) from hd)]
    exact runs_ok _ u

theorem runs_epochs (env : DynEnv W B K) (cfg : DynTrainCfg B) (es : List ℕ) (s : DynSt W B K) :
    Runs cfg.lyapLossFreq (es.flatMap cfg.trainBatches) (es.map (epochSaves cfg)).sum s
      (DynOut.foldl (trainEpoch env cfg) es s) := by
  induction es generalizing s with
  | nil => exact runs_ok _ s
  | cons e es ih => exact (runs_epoch env cfg e s).bind ih

/-- The batches of all epochs, in order. -/
def allBatches (cfg : DynTrainCfg B) (numEpoch : ℕ) : List B := (List.range numEpoch).flatMap cfg.trainBatches

theorem doSave_spec (s : DynSt W B K) : (doSave s).nIter = s.nIter ∧ stepsOf (doSave s).trace = stepsOf s.trace ∧
    programsOf (doSave s).trace = programsOf s.trace ∧ (savesOf (doSave s).trace).length = (savesOf s.trace).length + 1 ∧
    (doSave s).w = s.w ∧ (doSave s).trace.getLast? = some (.saved s.w) := by
  refine ⟨rfl, (stepsOf_append _ _).trans (List.append_nil _), (programsOf_append _ _).trans (List.append_nil _), ?_, rfl,
    by simp [doSave]⟩
  show (savesOf (s.trace ++ [.saved s.w])).length = _
  rw [savesOf_append]
  simp [savesOf]

theorem Mid.saved {freq : ℕ} {all : List B} {s r : DynSt W B K} (h : Mid freq all s r) (p : Bool) :
    Mid freq all s (if p then doSave r else r) := by
  split
  · obtain ⟨m, j, k, a, b, c, d, h⟩ := h
    obtain ⟨e1, e2, e3, -⟩ := doSave_spec r
    exact ⟨m, j, k, a, b, c, d, ⟨e1.trans h.iter, e2.trans h.steps, e3.trans h.programs⟩⟩
  · exact h

/-- **C111** (complete runs). If no interrupt arrives and `train` returns, every batch of every epoch has been descended once
and in order, under consecutive step numbers; the losses of the programs have been descended at exactly the steps divisible by
`lyap_loss_freq`; and the model has been saved after the epochs divisible by `save_rate` and at the end. -/
theorem C111_complete (env : DynEnv W B K) (cfg : DynTrainCfg B) (E : ℕ) (s r : DynSt W B K) (hb : s.budget = none)
    (h : dynTrain env cfg E s = .ok r) :
    Did cfg.lyapLossFreq (allBatches cfg E) s r (allBatches cfg E).length (allBatches cfg E).length
      (allBatches cfg E).length ∧
    (savesOf r.trace).length = (savesOf s.trace).length +
      ((List.range E).filter fun e => decide (Due cfg.saveRate e)).length + (if cfg.savePath then 1 else 0) := by
  have key := runs_epochs env cfg (List.range E) s
  have hc : ((List.range E).map (epochSaves cfg)).sum = ((List.range E).filter fun e => decide (Due cfg.saveRate e)).length := by
    generalize List.range E = es
    induction es with
    | nil => rfl
    | cons e es ih =>
      rw [List.map_cons, List.sum_cons, ih, List.filter_cons]
      unfold epochSaves
      by_cases hd : Due cfg.saveRate e
      · rw [if_pos (show 0 < cfg.saveRate ∧ cfg.saveRate ∣ e from hd), if_pos (by simpa using hd), List.length_cons]
        omega
      · rw [if_neg (show ¬ (0 < cfg.saveRate ∧ cfg.saveRate ∣ e) from hd), if_neg (by simpa using hd)]
        omega
  unfold dynTrain at h
  cases ho : DynOut.foldl (trainEpoch env cfg) (List.range E) s with
  | error t => rw [ho] at h; cases h
  | interrupted t =>
    rw [ho] at key
    exact absurd hb key.2
  | ok t =>
    rw [ho] at key h
    obtain ⟨k1, k2, -⟩ := key
    rw [hc] at k2
    cases h
    obtain ⟨e1, e2, e3, e4, -⟩ := doSave_spec t
    split
    · exact ⟨⟨e1.trans k1.iter, e2.trans k1.steps, e3.trans k1.programs⟩, by rw [e4, k2]⟩
    · exact ⟨k1, by rw [k2]; rfl⟩

/-- **C111** (crash points). Whenever the interrupt arrives, and also if another exception leaves `train`: the batches
descended are the first ones, in order and under consecutive step numbers; the counter is behind by at most the batch that was
being handled; and the losses of the programs have been descended at exactly the steps that were due. -/
theorem C111_interrupted (env : DynEnv W B K) (cfg : DynTrainCfg B) (E : ℕ) (s r : DynSt W B K)
    (h : dynTrain env cfg E s = .ok r ∨ dynTrain env cfg E s = .error r) :
    ∃ m j k, m ≤ j ∧ j ≤ k ∧ k ≤ m + 1 ∧ k ≤ (allBatches cfg E).length ∧
      Did cfg.lyapLossFreq (allBatches cfg E) s r m j k := by
  have key := runs_epochs env cfg (List.range E) s
  unfold dynTrain at h
  cases ho : DynOut.foldl (trainEpoch env cfg) (List.range E) s with
  | error t =>
    rw [ho] at h key
    rcases h with h | h
    · cases h
    · cases h
      exact key
  | interrupted t =>
    rw [ho] at key h
    rcases h with h | h
    · cases h
      exact Mid.saved key.1 _
    · cases h
  | ok t =>
    rw [ho] at key h
    rcases h with h | h
    · cases h
      exact Mid.saved ⟨_, _, _, le_rfl, le_rfl, by omega, le_rfl, key.1⟩ _
    · cases h

/-- **C111** (nothing is lost). Interrupted or not, if `train` returns and a path was given, the last thing it did was to save
the networks as they are. -/
theorem C111_saved (env : DynEnv W B K) (cfg : DynTrainCfg B) (E : ℕ) (s r : DynSt W B K) (hp : cfg.savePath = true)
    (h : dynTrain env cfg E s = .ok r) : r.trace.getLast? = some (.saved r.w) := by
  unfold dynTrain at h
  split at h
  · cases h
  · cases h
    simp [hp, doSave_spec]
  · cases h
    simp [hp, doSave_spec]

/-- `train` returns, interrupted or not, if no operation of the learner raises, there are validation batches if `validate` is
set, and a path is given if `save_rate` is positive. -/
theorem C111_returns (env : DynEnv W B K) (cfg : DynTrainCfg B) (E : ℕ) (s : DynSt W B K)
    (h1 : ∀ b w, (env.sampleStep b w).isSome) (h2 : ∀ b w, (env.sampleLosses b w).isSome)
    (h3 : ∀ l w, (env.programStep l w).isSome) (h4 : ∀ b w, (env.dynLoss b w).isSome)
    (hv : cfg.validate = true → cfg.validationBatches ≠ []) (hs : 0 < cfg.saveRate → cfg.savePath = true) :
    ∃ r, dynTrain env cfg E s = .ok r := by
  have at' : ∀ (f : DynSt W B K → Option (DynSt W B K)), (∀ s, (f s).isSome) → ∀ s,
      DynPost (fun _ => True) (fun _ => True) (fun _ => False) (atomic f s) := by
    intro f hf s
    unfold atomic
    split
    · trivial
    · split
      · trivial
      · rename_i h
        have := hf { s with budget := s.budget.map (· - 1) }
        rw [h] at this
        cases this
  have fo : ∀ {A : Type} (f : A → DynSt W B K → DynOut (DynSt W B K)),
      (∀ a s, DynPost (fun _ => True) (fun _ => True) (fun _ => False) (f a s)) → ∀ as s,
      DynPost (fun _ => True) (fun _ => True) (fun _ => False) (DynOut.foldl f as s) := by
    intro A f hf as
    induction as with
    | nil => intro s; trivial
    | cons a as ih => intro s; exact (hf a s).bind fun t _ => ih t
  have key := fo (trainEpoch env cfg) ?_ (List.range E) s
  · unfold dynTrain
    split
    · rename_i t ht
      rw [ht] at key
      exact key.elim
    · exact ⟨_, rfl⟩
    · exact ⟨_, rfl⟩
  intro e s
  unfold trainEpoch
  refine (fo _ ?_ _ s).bind fun t _ => DynPost.bind (P := fun _ => True) ?_ fun u _ => ?_
  · intro b s
    unfold trainBatch
    refine (at' _ ?_ s).bind fun t _ => DynPost.bind (P := fun _ => True) ?_ fun u _ => at' _ (fun _ => rfl) u
    · intro s
      simpa [doStep] using h1 b s.w
    · split
      · refine at' _ ?_ t
        intro s
        unfold doProgram
        obtain ⟨l, hl⟩ := Option.isSome_iff_exists.1 (h2 b s.w)
        obtain ⟨w, hw⟩ := Option.isSome_iff_exists.1 (h3 l.1 l.2)
        simp [hl, hw]
      · trivial
  · split
    · rename_i hval
      refine at' _ ?_ t
      intro s
      have hf : ∀ (bs : List B) a, (bs.foldlM (valStep env) a).isSome := by
        intro bs
        induction bs with
        | nil => intro a; rfl
        | cons b bs ih =>
          intro a
          obtain ⟨d, hd⟩ := Option.isSome_iff_exists.1 (h4 b a.2)
          obtain ⟨l, hl⟩ := Option.isSome_iff_exists.1 (h2 b d.2)
          simp only [List.foldlM_cons, valStep, hd, hl, Option.bind_eq_bind, Option.bind_some]
          exact ih _
      obtain ⟨r, hr⟩ := Option.isSome_iff_exists.1 (hf cfg.validationBatches ((0, 0, 0, 0, 0), s.w))
      simp [doValidate, hv hval, hr]
    · trivial
  · split
    · rename_i hd
      rw [if_pos (hs hd.1)]
      exact at' _ (fun _ => rfl) u
    · trivial

/-- A history of calls of `train`, each with its own arguments, shuffling and interrupt; `lyap_loss_freq` stays. -/
inductive History (env : DynEnv W B K) (freq : ℕ) (s0 : DynSt W B K) : DynSt W B K → Prop
  | start : History env freq s0 s0
  | call (s r : DynSt W B K) (cfg : DynTrainCfg B) (E : ℕ) (bd : Option ℕ) : History env freq s0 s →
      cfg.lyapLossFreq = freq →
      (dynTrain env cfg E { s with budget := bd } = .ok r ∨ dynTrain env cfg E { s with budget := bd } = .error r) →
      History env freq s0 r

/-- **C111** (histories). Over any history of calls, interrupted anywhere: the step numbers never decrease and leave no gap;
the losses of the programs have been descended at every finished step that was due, and at no step that was not. -/
theorem C111_history (env : DynEnv W B K) (freq : ℕ) (s0 r : DynSt W B K) (h0 : s0.nIter = 0) (ht : s0.trace = [])
    (h : History env freq s0 r) :
    (∀ n ∈ programsOf r.trace, Due freq n ∧ n ≤ r.nIter) ∧
    (∀ n, n < r.nIter → Due freq n → n ∈ programsOf r.trace) ∧
    (∀ n, n < r.nIter → ∃ b, (b, n) ∈ stepsOf r.trace) ∧
    ((stepsOf r.trace).map Prod.snd).Pairwise (· ≤ ·) ∧ (∀ p ∈ stepsOf r.trace, p.2 ≤ r.nIter) := by
  induction h with
  | start =>
    rw [ht, h0]
    refine ⟨?_, ?_, ?_, ?_, ?_⟩ <;> simp [programsOf, stepsOf]
  | call s r cfg E bd _ hf hr ih =>
    obtain ⟨i1, i2, i3, i4, i5⟩ := ih
    obtain ⟨m, j, k, a, b, c, d, hd⟩ := C111_interrupted env cfg E _ r hr
    obtain ⟨d1, d2, d3⟩ := hd
    simp only at d1 d2 d3
    rw [hf] at d3
    refine ⟨?_, ?_, ?_, ?_, ?_⟩
    · intro n hn
      rw [d3, List.mem_append] at hn
      rcases hn with hn | hn
      · obtain ⟨e1, e2⟩ := i1 n hn
        exact ⟨e1, by omega⟩
      · obtain ⟨e1, e2⟩ := List.mem_filter.1 hn
        rw [List.mem_range'_1] at e1
        exact ⟨of_decide_eq_true e2, by omega⟩
    · intro n hn hdue
      rw [d3, List.mem_append]
      by_cases hlt : n < s.nIter
      · exact Or.inl (i2 n hlt hdue)
      · refine Or.inr (List.mem_filter.2 ⟨?_, decide_eq_true hdue⟩)
        rw [List.mem_range'_1]
        omega
    · intro n hn
      rw [d2]
      by_cases hlt : n < s.nIter
      · obtain ⟨x, hx⟩ := i3 n hlt
        exact ⟨x, List.mem_append_left _ hx⟩
      · have hk : n - s.nIter < ((allBatches cfg E).take k).length := by rw [List.length_take]; omega
        refine ⟨((allBatches cfg E).take k)[n - s.nIter], List.mem_append_right _ ?_⟩
        rw [List.mem_zipIdx_iff_le_and_getElem?_sub]
        exact ⟨by simp only; omega, List.getElem?_eq_getElem hk⟩
    · rw [d2, List.map_append, List.pairwise_append]
      refine ⟨i4, ?_, ?_⟩
      · rw [List.zipIdx_map_snd]
        exact (List.pairwise_lt_range' (step := 1)).imp fun h => h.le
      · intro x hx y hy
        obtain ⟨p, hp, rfl⟩ := List.mem_map.1 hx
        rw [List.zipIdx_map_snd, List.mem_range'_1] at hy
        have := i5 p hp
        omega
    · intro p hp
      rw [d2, List.mem_append] at hp
      rcases hp with hp | hp
      · have := i5 p hp
        omega
      · have : p.2 ∈ (((allBatches cfg E).take k).zipIdx s.nIter).map Prod.snd := List.mem_map_of_mem hp
        rw [List.zipIdx_map_snd, List.mem_range'_1, List.length_take] at this
        omega

/-- One batch: the thresholds of the programs are the losses at the samples of this batch, with the networks that the step on
the batch has just produced. -/
theorem C111_batch (env : DynEnv W B K) (cfg : DynTrainCfg B) (b : B) (s r : DynSt W B K)
    (h : trainBatch env cfg b s = .ok r) :
    ∃ w1, env.sampleStep b s.w = some w1 ∧
      (¬ Due cfg.lyapLossFreq s.nIter → r.w = w1 ∧ r.trace = s.trace ++ [.step s.nIter b]) ∧
      (Due cfg.lyapLossFreq s.nIter → ∃ l w2, env.sampleLosses b w1 = some (l, w2) ∧ env.programStep l w2 = some r.w ∧
        r.trace = s.trace ++ [.step s.nIter b, .program s.nIter l]) := by
  have key : DynPost (fun r => ∃ w1, env.sampleStep b s.w = some w1 ∧
      (¬ Due cfg.lyapLossFreq s.nIter → r.w = w1 ∧ r.trace = s.trace ++ [.step s.nIter b]) ∧
      (Due cfg.lyapLossFreq s.nIter → ∃ l w2, env.sampleLosses b w1 = some (l, w2) ∧ env.programStep l w2 = some r.w ∧
        r.trace = s.trace ++ [.step s.nIter b, .program s.nIter l])) (fun _ => True) (fun _ => True)
      (trainBatch env cfg b s) := by
    unfold trainBatch
    refine DynPost.bind ((atomic_post _ s).mono (fun _ h => h) (fun _ _ => trivial) (fun _ _ => trivial)) ?_
    rintro t ⟨bd, -, ht⟩
    obtain ⟨w1, hw1, rfl⟩ := Option.map_eq_some_iff.1 ht
    refine DynPost.bind (P := fun u => (¬ Due cfg.lyapLossFreq s.nIter → u.w = w1 ∧ u.trace = s.trace ++ [.step s.nIter b]) ∧
      (Due cfg.lyapLossFreq s.nIter → ∃ l w2, env.sampleLosses b w1 = some (l, w2) ∧ env.programStep l w2 = some u.w ∧
        u.trace = s.trace ++ [.step s.nIter b, .program s.nIter l])) ?_ ?_
    · split
      · rename_i hd
        rw [due_iff] at hd
        refine (atomic_post _ _).mono ?_ (fun _ _ => trivial) (fun _ _ => trivial)
        rintro u ⟨bd', -, hu⟩
        unfold doProgram at hu
        obtain ⟨l, hl, hu⟩ := Option.bind_eq_some_iff.1 hu
        obtain ⟨w, hw, hu⟩ := Option.bind_eq_some_iff.1 hu
        cases hu
        exact ⟨fun h => absurd hd h, fun _ => ⟨l.1, l.2, hl, hw, by simp⟩⟩
      · rename_i hd
        rw [due_iff] at hd
        exact ⟨fun _ => ⟨rfl, rfl⟩, fun h => absurd h hd⟩
    · intro u hu
      refine (atomic_post _ _).mono ?_ (fun _ _ => trivial) (fun _ _ => trivial)
      rintro v ⟨bd', -, hv⟩
      cases hv
      exact ⟨w1, hw1, hu⟩
  rw [h] at key
  exact key

/-- The mean of `g` over a list. -/
def meanOver {S : Type} (g : S → K) (l : List S) : K := (l.map g).sum / (l.length : K)

theorem valFold {S : Type} [CharZero K] (env : DynEnv W (List S) K) (w : W) (g1 g2 g3 g4 : S → K)
    (hs : ∀ b, env.size b = b.length) (hd : ∀ b, env.dynLoss b w = some (meanOver g1 b, w))
    (hl : ∀ b, env.sampleLosses b w = some ((meanOver g2 b, meanOver g3 b, meanOver g4 b), w)) (bs : List (List S))
    (a : K × K × K × K × K) :
    bs.foldlM (valStep env) (a, w) = some ((a.1 + (bs.flatten.map g1).sum, a.2.1 + (bs.flatten.map g2).sum,
      a.2.2.1 + (bs.flatten.map g3).sum, a.2.2.2.1 + (bs.flatten.map g4).sum, a.2.2.2.2 + (bs.flatten.length : K)), w) := by
  have hm : ∀ (g : S → K) (b : List S), meanOver g b * (b.length : K) = (b.map g).sum := by
    intro g b
    unfold meanOver
    cases b with
    | nil => simp
    | cons x b =>
      rw [div_mul_cancel₀]
      exact Nat.cast_ne_zero.2 (by simp)
  induction bs generalizing a with
  | nil => simp
  | cons b bs ih =>
    simp only [List.foldlM_cons, valStep, hd, hl, hs, hm, Option.bind_eq_bind, Option.bind_some, ih]
    simp only [List.flatten_cons, List.map_append, List.sum_append, List.length_append, Nat.cast_add, add_assoc]

/-- **C111** (validation). If each loss of a batch is the mean over its samples, then each logged loss is the mean over all
validation samples, however they are split into batches; the networks stay as they are. -/
theorem C111_validation {S : Type} [CharZero K] (env : DynEnv W (List S) K) (cfg : DynTrainCfg (List S))
    (s r : DynSt W (List S) K) (g1 g2 g3 g4 : S → K)
    (hs : ∀ b, env.size b = b.length) (hd : ∀ b, env.dynLoss b s.w = some (meanOver g1 b, s.w))
    (hl : ∀ b, env.sampleLosses b s.w = some ((meanOver g2 b, meanOver g3 b, meanOver g4 b), s.w))
    (h : doValidate env cfg s = some r) :
    let all := cfg.validationBatches.flatten
    r.w = s.w ∧ r.nIter = s.nIter ∧ r.trace = s.trace ++
      [.validated s.nIter (meanOver g1 all, meanOver g2 all, meanOver g3 all, meanOver g4 all)] := by
  unfold doValidate at h
  split at h
  · cases h
  · rw [valFold env s.w g1 g2 g3 g4 hs hd hl] at h
    simp only [Option.bind_eq_bind, Option.bind_some, Option.some.injEq, zero_add] at h
    subst h
    exact ⟨rfl, rfl, rfl⟩

end NNL.Props

namespace NNL.Props

open NNL NNL.Model NNL.Spec

/-- A learner over `ℚ`: the network is a number, a batch step subtracts the mean of the batch, a program step halves; the loss at
the samples is the mean over the nonnegative ones. -/
def exLearner : DynEnv ℚ (List ℚ) ℚ where
  sampleStep b w := some (w - meanOver id b)
  sampleLosses b w := some ((meanOver id (b.filter (0 ≤ ·)), 0, 0), w)
  programStep _ w := some (w / 2)
  dynLoss b w := some (meanOver id b, w)
  size b := b.length

def exTrainCfg : DynTrainCfg (List ℚ) where
  lyapLossFreq := 2
  saveRate := 2
  savePath := true
  validate := true
  trainBatches e := if e % 2 = 0 then [[1, 2], [3]] else [[3], [2, 1]]
  validationBatches := [[1, -1], [0]]

/-- Samples outside the region of interest count for the weight of their batch but not for its loss: the logged loss is not
the mean over the samples that count. -/
theorem C111_validation_filtered_counterexample : ∃ r, doValidate exLearner exTrainCfg ⟨8, 0, [], none⟩ = some r ∧
    r.trace = [.validated 0 (0, 2 / 3, 0, 0)] ∧
    meanOver id (exTrainCfg.validationBatches.flatten.filter (0 ≤ ·)) = (1 / 2 : ℚ) := by
  refine ⟨⟨8, 0, [.validated 0 (0, 2 / 3, 0, 0)], none⟩, ?_, rfl, by decide +kernel⟩
  simp [doValidate, exLearner, exTrainCfg, valStep, meanOver]
  norm_num

/-- The state in which a piece of the program ends. -/
def DynOut.st {S : Type} : DynOut S → S
  | .ok s => s
  | .interrupted s => s
  | .error s => s

theorem exTrain_ok (E : ℕ) (s : DynSt ℚ (List ℚ) ℚ) :
    dynTrain exLearner exTrainCfg E s = .ok (DynOut.st (dynTrain exLearner exTrainCfg E s)) := by
  obtain ⟨r, h⟩ := C111_returns exLearner exTrainCfg E s (fun _ _ => rfl) (fun _ _ => rfl)
    (fun _ _ => rfl) (fun _ _ => rfl) (by simp [exTrainCfg]) (by simp [exTrainCfg])
  rw [h]
  rfl

/-- A history in which a step number is used twice: the first call is interrupted after the steps on its first batch,
before the counter is increased, and the second call begins again with step 0. -/
theorem C111_repeated_step : ∃ r, History exLearner 2 ⟨8, 0, [], none⟩ r ∧
    stepsOf r.trace = [([1, 2], 0), ([1, 2], 0), ([3], 1)] ∧ programsOf r.trace = [0, 0] ∧ r.nIter = 2 := by
  refine ⟨_, .call _ _ exTrainCfg 1 none (.call _ _ exTrainCfg 1 (some 2) .start rfl (Or.inl (exTrain_ok _ _))) rfl
    (Or.inl (exTrain_ok _ _)), ?_, ?_, ?_⟩ <;> decide +kernel

/-- The hypotheses of C111 are met by a run of two epochs: four steps, programs at the even ones, saves after epoch 0 and at
the end. -/
example : ∃ r, dynTrain exLearner exTrainCfg 2 ⟨8, 0, [], none⟩ = .ok r ∧ r.nIter = 4 ∧
    stepsOf r.trace = [([1, 2], 0), ([3], 1), ([3], 2), ([2, 1], 3)] ∧ programsOf r.trace = [0, 2] ∧
    (savesOf r.trace).length = 2 := by
  obtain ⟨r, h⟩ := C111_returns exLearner exTrainCfg 2 ⟨8, 0, [], none⟩ (fun _ _ => rfl) (fun _ _ => rfl)
    (fun _ _ => rfl) (fun _ _ => rfl) (by simp [exTrainCfg]) (by simp [exTrainCfg])
  obtain ⟨⟨h1, h2, h3⟩, h4⟩ := C111_complete exLearner exTrainCfg 2 _ r rfl h
  refine ⟨r, h, h1, ?_, ?_, ?_⟩
  · rw [h2]; decide +kernel
  · rw [h3]; decide +kernel
  · rw [h4]; decide +kernel

end NNL.Props
