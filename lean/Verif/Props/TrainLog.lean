import Verif.Model.TrainLog
import Verif.Spec.TrainLog
import Verif.Props.ForwardTraining

/-!
C130: `utils.train_model` and `TrainingLog`.
-/

set_option linter.unusedSectionVars false

namespace NNL.Props

open NNL NNL.Model NNL.Spec

/-! ### train_model -/

section TrainModel

variable {K : Type*} [Field K] {P : Type*}

theorem batchesOf_count {D : Type*} (b : ℕ) (hb : b ≠ 0) : ∀ (fuel : ℕ) (l : List D), l.length ≤ fuel →
    (batchesOf b fuel l).length = (l.length + b - 1) / b
  | 0, l, h => by
    have : l = [] := List.length_eq_zero_iff.1 (by omega)
    subst this
    rw [Nat.div_eq_of_lt (by simp; omega)]
    rfl
  | fuel + 1, [], _ => by
    rw [Nat.div_eq_of_lt (by simp; omega)]
    rfl
  | fuel + 1, d :: ds, h => by
    have hl : ((d :: ds).drop b).length ≤ fuel := by simp at h ⊢; omega
    rw [batchesOf, List.length_cons, batchesOf_count b hb fuel _ hl, List.length_drop]
    have hpos : 0 < b := by omega
    rcases Nat.lt_or_ge (d :: ds).length b with hlt | hge
    · have e1 : ((d :: ds).length - b + b - 1) / b = 0 := Nat.div_eq_of_lt (by omega)
      have e2 : ((d :: ds).length + b - 1) / b = 1 := by
        have h1 : 1 ≤ (d :: ds).length := by simp
        rw [Nat.div_eq_iff hpos]
        omega
      omega
    · have e : (d :: ds).length + b - 1 = ((d :: ds).length - b + b - 1) + b := by omega
      rw [e, Nat.add_div_right _ hpos]

/-- **C130** (training). `train_model` returns whenever there are data and the batch size is positive. In each epoch
it takes `⌈n / batch_size⌉` steps of Adam, on batches that contain every sample exactly once and that are full
except for the last. The losses of an epoch are, at fixed parameters, the total squared error divided by the batch
size; the loss of a full batch is the mean error of its samples, that of a smaller last batch is less than their
mean by the factor `size / batch_size`. -/
theorem C130_training [CharZero K] (model : P → Vec K → Vec K) (adam : (P → K) → P → P)
    (shuffle : ℕ → List (Vec K × Vec K) → List (Vec K × Vec K)) (b epochs : ℕ) (p : P)
    (data : List (Vec K × Vec K)) (hsh : ∀ i, (shuffle i data).Perm data) (hb : b ≠ 0) (hd : data ≠ []) :
    ∃ batches : ℕ → List (List (Vec K × Vec K)),
      trainModel model adam shuffle b epochs p data =
        some (((List.range epochs).flatMap batches).foldl
          (fun p B => adam (fun q => (B.map (sampleError model q)).sum / b) p) p) ∧
      ∀ i, (batches i).flatten.Perm data ∧ (batches i).length = (data.length + b - 1) / b ∧
        (∀ B ∈ batches i, B ≠ [] ∧ B.length ≤ b) ∧ (∀ B ∈ (batches i).dropLast, B.length = b) ∧
        (∀ q, ((batches i).map fun B => (B.map (sampleError model q)).sum / (b : K)).sum =
          (data.map (sampleError model q)).sum / b) ∧
        ∀ B ∈ batches i, ∀ q, (B.map (sampleError model q)).sum / (b : K) =
          (B.length / b : K) * ((B.map (sampleError model q)).sum / B.length) := by
  refine ⟨fun i => batchesOf b (shuffle i data).length (shuffle i data), ?_, fun i => ?_⟩
  · rw [trainModel, if_neg (by simp [hd, hb])]
    congr 1
    rw [List.foldl_flatMap]
    rfl
  · have hf := batchesOf_flatten b hb (shuffle i data).length (shuffle i data) le_rfl
    obtain ⟨h1, h2⟩ := batchesOf_size b hb (shuffle i data).length (shuffle i data) le_rfl
    refine ⟨by rw [hf]; exact hsh i, ?_, h1, h2, fun q => ?_, fun B hB q => ?_⟩
    · rw [batchesOf_count b hb _ _ le_rfl, (hsh i).length_eq]
    · have e : (data.map (sampleError model q)).sum =
          ((batchesOf b (shuffle i data).length (shuffle i data)).map fun B =>
            (B.map (sampleError model q)).sum).sum := by
        rw [← ((hsh i).map _).sum_eq]
        conv_lhs => rw [← hf]
        rw [List.map_flatten, List.sum_flatten, List.map_map]
        rfl
      rw [e]
      show ((batchesOf b (shuffle i data).length (shuffle i data)).map _).sum = _
      generalize batchesOf b (shuffle i data).length (shuffle i data) = l
      induction l with
      | nil => simp
      | cons B l ih => simp only [List.map_cons, List.sum_cons, ih, add_div]
    · have : (B.length : K) ≠ 0 := Nat.cast_ne_zero.2 fun h => (h1 B hB).1 (List.length_eq_zero_iff.1 h)
      rw [div_mul_div_comm, mul_comm (b : K), mul_div_mul_left _ _ this]

/-- **C130** (training): it raises exactly for no data or a batch size of zero. -/
theorem C130_training_raises (model : P → Vec K → Vec K) (adam : (P → K) → P → P)
    (shuffle : ℕ → List (Vec K × Vec K) → List (Vec K × Vec K)) (b epochs : ℕ) (p : P)
    (data : List (Vec K × Vec K)) :
    trainModel model adam shuffle b epochs p data = none ↔ data = [] ∨ b = 0 := by
  unfold trainModel
  split_ifs with h <;> simp [h]

end TrainModel

/-! ### TrainingLog -/

variable {K : Type*}

/-- The number of training losses among some calls. -/
def trainCount (cs : List (Bool × List K)) : ℕ := (cs.filter fun c => !c.1).length

theorem calls_spec : ∀ (cs : List (Bool × List K)) (W W' : Writers K) (L L' : TrainLog K),
    TrainLog.calls W L cs = some (W', L') →
    L' = { L with train := L.train ++ (cs.filter fun c => !c.1).map (·.2),
                  validation := L.validation ++ (cs.filter fun c => c.1).map (·.2) } ∧
    (∀ c ∈ cs, c.2.length = L.lossDim) ∧
    (∀ w, w ≠ L.writer → W'[w]? = W[w]?) ∧
    ∀ ps, W[L.writer]? = some ps → ∃ new, W'[L.writer]? = some (ps ++ new) ∧ ∀ pt, pt ∈ new ↔
      ∃ (k : ℕ) (c : Bool × List K), cs[k]? = some c ∧
        pt ∈ L.points c.1 c.2 (L.train.length + trainCount (cs.take (k + 1)))
  | [], W, W', L, L', h => by
    simp only [TrainLog.calls, Option.some.injEq, Prod.mk.injEq] at h
    obtain ⟨rfl, rfl⟩ := h
    refine ⟨by simp, by simp, fun _ _ => rfl, fun ps hp => ⟨[], by simpa using hp, by simp⟩⟩
  | c :: cs, W, W', L, L', h => by
    simp only [TrainLog.calls, Option.bind_eq_some_iff] at h
    obtain ⟨⟨W1, L1⟩, h1, h2⟩ := h
    obtain ⟨i1, i2, i3, i4⟩ := calls_spec cs W1 W' L1 L' h2
    have step : ∃ new, W1 = W.modify L.writer (· ++ new) ∧ c.2.length = L.lossDim ∧
        L1 = { L with train := L.train ++ ([c].filter fun c => !c.1).map (·.2),
                      validation := L.validation ++ ([c].filter fun c => c.1).map (·.2) } ∧
        new = L.points c.1 c.2 (L.train.length + trainCount [c]) := by
      obtain ⟨v, l⟩ := c
      unfold TrainLog.call at h1
      cases v with
      | true =>
        simp only [if_true, TrainLog.addValidation] at h1
        split_ifs at h1 with hc
        simp only [Option.some.injEq, Prod.mk.injEq] at h1
        obtain ⟨rfl, rfl⟩ := h1
        exact ⟨_, rfl, hc.1, by simp, by simp [trainCount, TrainLog.points]⟩
      | false =>
        simp only [Bool.false_eq_true, if_false, TrainLog.addTrain] at h1
        split_ifs at h1 with hc
        simp only [Option.some.injEq, Prod.mk.injEq] at h1
        obtain ⟨rfl, rfl⟩ := h1
        exact ⟨_, rfl, hc.1, by simp, by simp [trainCount, TrainLog.points]⟩
    obtain ⟨new, rfl, s2, rfl, s4⟩ := step
    simp only at i1 i2 i3 i4
    refine ⟨?_, ?_, fun w hw => ?_, fun ps hp => ?_⟩
    · rw [i1]
      cases hv : c.1 <;> simp [hv]
    · intro d hd
      rcases List.mem_cons.1 hd with rfl | hd
      · exact s2
      · exact i2 d hd
    · rw [i3 w hw, List.getElem?_modify_ne _ _ (Ne.symm hw)]
    · obtain ⟨new', e1, e2⟩ := i4 (ps ++ new) (by simp [List.getElem?_modify_eq, hp])
      refine ⟨new ++ new', by rw [e1, List.append_assoc], fun pt => ?_⟩
      rw [List.mem_append, e2]
      have hpts : ∀ v l n, TrainLog.points { L with
          train := L.train ++ ([c].filter fun c => !c.1).map (·.2),
          validation := L.validation ++ ([c].filter fun c => c.1).map (·.2) } v l n = L.points v l n :=
        fun _ _ _ => rfl
      simp only [hpts]
      have hcnt : ∀ k, (L.train ++ ([c].filter fun c => !c.1).map (·.2)).length + trainCount (cs.take (k + 1)) =
          L.train.length + trainCount ((c :: cs).take (k + 1 + 1)) := by
        intro k
        cases hv : c.1 <;> (simp [trainCount, hv]; try omega)
      simp only [hcnt]
      constructor
      · rintro (h | ⟨k, d, hk, hm⟩)
        · exact ⟨0, c, rfl, by simpa [s4] using h⟩
        · exact ⟨k + 1, d, by simpa using hk, hm⟩
      · rintro ⟨k, d, hk, hm⟩
        cases k with
        | zero =>
          simp only [List.getElem?_cons_zero, Option.some.injEq] at hk
          subst hk
          left
          simpa [s4] using hm
        | succ k => exact Or.inr ⟨k, d, by simpa using hk, hm⟩

/-- **C130** (log). After any calls on a new log with its own writer: the arrays are the losses in the order of the
calls; the other writers are unchanged; and the points that are plotted are those of the calls, the `s`-th training
loss at the step `s`, a validation loss at the number of training losses before it. -/
theorem C130_log (W W' : Writers K) (n : ℕ) (curve : String) (first : Bool) (cs : List (Bool × List K))
    (L' : TrainLog K)
    (h : TrainLog.calls (TrainLog.new W n curve none first).1 (TrainLog.new W n curve none first).2 cs = some (W', L')) :
    L'.train = (cs.filter fun c => !c.1).map (·.2) ∧ L'.validation = (cs.filter fun c => c.1).map (·.2) ∧
    (∀ l ∈ L'.train ++ L'.validation, l.length = n) ∧
    (∀ w, w < W.length → W'[w]? = W[w]?) ∧
    ∃ pts, W'[W.length]? = some pts ∧ ∀ pt, pt ∈ pts ↔ pt.curve = curve ∧
      (pt.component = none ∧ first = true ∨ ∃ i, pt.component = some i ∧ first = false) ∧
      ∃ (k : ℕ) (losses : List K), cs[k]? = some (pt.validation, losses) ∧
        losses[pt.component.getD 0]? = some pt.value ∧
        pt.step = ((cs.take k).filter fun c => !c.1).length + if pt.validation then 0 else 1 := by
  obtain ⟨h1, h2, h3, h4⟩ := calls_spec cs _ _ _ _ h
  simp only [TrainLog.new, List.nil_append] at h1 h2 h3 h4
  subst h1
  refine ⟨rfl, rfl, ?_, fun w hw => ?_, ?_⟩
  · intro l hl
    simp only [List.mem_append, List.mem_map, List.mem_filter] at hl
    rcases hl with ⟨c, hc, rfl⟩ | ⟨c, hc, rfl⟩ <;> exact h2 c hc.1
  · rw [h3 w (by omega), List.getElem?_append_left hw]
  · obtain ⟨new, e1, e2⟩ := h4 [] (by simp)
    refine ⟨new, by simpa using e1, fun pt => ?_⟩
    rw [e2]
    have hstep : ∀ (k : ℕ) (c : Bool × List K), cs[k]? = some c →
        0 + trainCount (cs.take (k + 1)) = ((cs.take k).filter fun c => !c.1).length + if c.1 then 0 else 1 := by
      intro k c hk
      rw [List.take_add_one, hk, trainCount, List.filter_append, List.length_append]
      cases hv : c.1 <;> simp [hv]
    obtain ⟨pv, pc, pcu, pval, pst⟩ := pt
    simp only
    constructor
    · rintro ⟨k, c, hk, hm⟩
      simp only [List.length_nil] at hm
      rw [hstep k c hk] at hm
      unfold TrainLog.points at hm
      simp only at hm
      by_cases hf : first = true
      · rw [if_pos hf] at hm
        simp only [List.mem_map, LogPoint.mk.injEq] at hm
        obtain ⟨v, hv, rfl, rfl, rfl, rfl, rfl⟩ := hm
        refine ⟨rfl, Or.inl ⟨rfl, hf⟩, k, c.2, hk, ?_, rfl⟩
        cases hl : c.2 with
        | nil => rw [hl] at hv; simp at hv
        | cons a t => rw [hl] at hv; simp at hv; simp [hv]
      · rw [if_neg hf] at hm
        simp only [List.mem_mapIdx, LogPoint.mk.injEq] at hm
        obtain ⟨i, hi, rfl, rfl, rfl, rfl, rfl⟩ := hm
        exact ⟨rfl, Or.inr ⟨i, rfl, by simpa using hf⟩, k, c.2, hk, by simp, rfl⟩
    · rintro ⟨rfl, hc, k, l, hk, hl, hst⟩
      have hst : pst = _ := hst
      refine ⟨k, (pv, l), hk, ?_⟩
      simp only [List.length_nil]
      rw [hstep k _ hk, hst]
      unfold TrainLog.points
      simp only
      rcases hc with ⟨rfl, rfl⟩ | ⟨i, rfl, rfl⟩
      · simp only [if_true, List.mem_map, LogPoint.mk.injEq, true_and, and_true]
        refine ⟨pval, ?_, rfl⟩
        cases l with
        | nil => simp at hl
        | cons a t => simp at hl; simp [hl]
      · simp only [Bool.false_eq_true, if_false, List.mem_mapIdx, LogPoint.mk.injEq, true_and, and_true]
        obtain ⟨hi, e⟩ := List.getElem?_eq_some_iff.1 hl
        exact ⟨i, hi, by simp, e⟩

/-- **C130** (log): a call raises exactly if the number of losses is wrong, or the first loss is wanted and there is
none. -/
theorem C130_log_raises (W : Writers K) (L : TrainLog K) (c : Bool × List K) :
    L.call W c = none ↔ c.2.length ≠ L.lossDim ∨ (L.firstOnly = true ∧ L.lossDim = 0) := by
  unfold TrainLog.call TrainLog.addTrain TrainLog.addValidation
  split_ifs with h1 h2 h2 <;> simp only [false_iff, true_iff, not_or, not_and] <;>
    first
    | exact ⟨by simpa using h2.1, fun h => h2.2 h⟩
    | (by_contra hc
       push Not at hc
       exact h2 ⟨hc.1, fun h => hc.2 h⟩)

/-- **C130** (copies). A copy starts with the losses of the log. Without `keep_writer` no call on the copy changes
what the log's writer plots. -/
theorem C130_copy (W W' : Writers K) (L L' : TrainLog K) (hw : L.writer < W.length) (curve : Option String)
    (first : Option Bool) (keep : Bool) (cs : List (Bool × List K))
    (h : TrainLog.calls (L.copy W curve first keep).1 (L.copy W curve first keep).2 cs = some (W', L')) :
    L'.train = L.train ++ (cs.filter fun c => !c.1).map (·.2) ∧
    L'.validation = L.validation ++ (cs.filter fun c => c.1).map (·.2) ∧
    L'.curve = curve.getD L.curve ∧ L'.firstOnly = first.getD L.firstOnly ∧
    (keep = false → W'[L.writer]? = W[L.writer]?) ∧ (keep = true → L'.writer = L.writer) := by
  obtain ⟨h1, -, h3, -⟩ := calls_spec cs _ _ _ _ h
  subst h1
  refine ⟨?_, ?_, ?_, ?_, fun hk => ?_, fun hk => ?_⟩
  · cases keep <;> rfl
  · cases keep <;> rfl
  · cases keep <;> rfl
  · cases keep <;> rfl
  · subst hk
    rw [h3 L.writer (by simp [TrainLog.copy, TrainLog.new]; omega)]
    simp [TrainLog.copy, TrainLog.new, List.getElem?_append_left hw]
  · subst hk
    rfl

/-- **C130** (copies): with `keep_writer` and no new prefix, the next training losses of the log and of its copy are
plotted at the same step of the same curve. -/
theorem C130_shared_curve (W : Writers K) (L : TrainLog K) (hw : L.writer < W.length) (hf : L.firstOnly = false)
    (a b : List K) (ha : a.length = L.lossDim) (hb : b.length = L.lossDim) (i : ℕ) (hi : i < L.lossDim) :
    ∃ W1 L1 W2 L2 pts va vb, L.addTrain (L.copy W none none true).1 a = some (W1, L1) ∧
      (L.copy W none none true).2.addTrain W1 b = some (W2, L2) ∧ W2[L.writer]? = some pts ∧
      a[i]? = some va ∧ b[i]? = some vb ∧
      ⟨false, some i, L.curve, va, L.train.length + 1⟩ ∈ pts ∧ ⟨false, some i, L.curve, vb, L.train.length + 1⟩ ∈ pts := by
  have hia : i < a.length := by omega
  have hib : i < b.length := by omega
  have hg : W[L.writer]? = some W[L.writer] := List.getElem?_eq_getElem hw
  refine ⟨_, _, _, _,
    W[L.writer] ++ L.points false a (L.train.length + 1) ++ L.points false b (L.train.length + 1), a[i], b[i], if_pos ⟨ha, by simp [hf]⟩, if_pos ⟨hb, by simp [TrainLog.copy, TrainLog.new, hf]⟩,
    ?_, by simp [hia], by simp [hib], ?_, ?_⟩
  · simp [TrainLog.copy, TrainLog.new, List.getElem?_modify_eq, hg, TrainLog.points]
  · refine List.mem_append_left _ (List.mem_append_right _ ?_)
    simp only [TrainLog.points, hf, Bool.false_eq_true, if_false, List.mem_mapIdx]
    exact ⟨i, hia, rfl⟩
  · refine List.mem_append_right _ ?_
    simp only [TrainLog.points, hf, Bool.false_eq_true, if_false, List.mem_mapIdx]
    exact ⟨i, hib, rfl⟩

/-! ### Concrete cases -/

/-- A linear model `x ↦ p x`, three samples, batches of two. -/
example : trainModel (K := ℚ) (P := ℚ) (fun p x => vsmul p x) (fun f p => p + f p) (fun _ l => l.reverse) 2 1 1
    [([1], [2]), ([2], [2]), ([3], [3])] = some (3 / 2) := by decide +kernel

/-- Two training losses with validations. -/
example : ∃ L', TrainLog.calls (TrainLog.new ([] : Writers ℚ) 1 "V" none false).1 (TrainLog.new [] 1 "V" none false).2
    [(false, [4]), (true, [5]), (false, [3]), (true, [7])] =
    some ([[⟨false, some 0, "V", 4, 1⟩, ⟨true, some 0, "V", 5, 1⟩, ⟨false, some 0, "V", 3, 2⟩,
      ⟨true, some 0, "V", 7, 2⟩]], L') := ⟨_, rfl⟩

end NNL.Props
