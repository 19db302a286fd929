import Verif.Model.TrainValue
import Verif.Props.TrainUtil

/-!
C113: the loops of `AdversarialWithBaseline`.
-/

namespace NNL.Props

open NNL NNL.Model

variable {D L : Type}

theorem valueInner_spec (desired : ℕ) (k : ℕ) (s : ℕ × ℕ) (h : s.1 < desired) :
    (valueInner desired k s).1 = min desired (s.1 + k) ∧
      (valueInner desired k s).2 + s.1 = s.2 + (valueInner desired k s).1 := by
  induction k generalizing s with
  | zero => simp [valueInner]; omega
  | succ k ih =>
    rw [valueInner]
    split
    · constructor <;> simp only <;> omega
    · rename_i hc
      obtain ⟨h1, h2⟩ := ih (s.1 + 1, s.2 + 1) (by simp only; omega)
      simp only at h1 h2
      constructor <;> omega

/-- The number of rounds of sampling for `n` steps, `k` per round. -/
def rounds (n k : ℕ) : ℕ := (n + k - 1) / k

theorem rounds_succ {n k : ℕ} (hk : 0 < k) (hn : 0 < n) : rounds n k = rounds (n - min n k) k + 1 := by
  unfold rounds
  by_cases h : n ≤ k
  · have e1 : (n + k - 1) / k = 1 := by
      rw [Nat.div_eq_iff hk]; omega
    have e2 : (n - min n k + k - 1) / k = 0 := by
      rw [Nat.div_eq_zero_iff]; omega
    rw [e1, e2]
  · have e : n + k - 1 = (n - min n k + k - 1) + k := by omega
    rw [e, Nat.add_div_right _ hk]

theorem valueRounds_spec (bench : Bool) (o : ValueOpt) (V : D → Option L) (hk : 0 < o.stepsBetween) (ws : List (Draws D L))
    (iter : ℕ) (s r : ValueSt D L) (ws' : List (Draws D L)) (hi : iter ≤ o.iterDesired)
    (h : valueRounds bench o V ws iter s = some (r, ws')) :
    r.total + iter = s.total + o.iterDesired ∧ rounds (o.iterDesired - iter) o.stepsBetween ≤ ws.length ∧
      ws' = ws.drop (rounds (o.iterDesired - iter) o.stepsBetween) := by
  induction ws generalizing iter s with
  | nil =>
    unfold valueRounds at h
    split at h
    · cases h
    · cases h
      have : iter = o.iterDesired := by omega
      subst this
      have : rounds 0 o.stepsBetween = 0 := by
        unfold rounds; rw [Nat.div_eq_zero_iff]; omega
      simp [this]
  | cons w ws ih =>
    unfold valueRounds at h
    split at h
    · rename_i hlt
      simp only at h
      split at h
      · cases h
      · split at h
        · cases h
        · rename_i b hb hs
          obtain ⟨h1, h2⟩ := valueInner_spec o.iterDesired o.stepsBetween (iter, s.total) hlt
          simp only at h1 h2
          obtain ⟨e1, e2, e3⟩ := ih _ _ (by rw [h1]; omega) h
          have er : o.iterDesired - (valueInner o.iterDesired o.stepsBetween (iter, s.total)).1 =
              (o.iterDesired - iter) - min (o.iterDesired - iter) o.stepsBetween := by rw [h1]; omega
          rw [rounds_succ hk (by omega), ← er]
          simp only at e1
          refine ⟨by omega, by simp only [List.length_cons]; omega, by rw [e3, List.drop_succ_cons]⟩
    · cases h
      have : iter = o.iterDesired := by omega
      subst this
      have : rounds 0 o.stepsBetween = 0 := by
        unfold rounds; rw [Nat.div_eq_zero_iff]; omega
      simp [this]

/-- **C113** (steps). A call that returns has carried out exactly `num_iter_desired` training steps, with one round of sampling for every
`num_steps_between_sampling` of them (the last round may have fewer). -/
theorem C113_steps (bench : Bool) (o : ValueOpt) (V : D → Option L) (hk : 0 < o.stepsBetween) (init : List D)
    (ws ws' : List (Draws D L)) (s r : ValueSt D L) (h : valueTrain bench o V init ws s = some (r, ws')) :
    r.total = s.total + o.iterDesired ∧ ∃ k, k * o.stepsBetween < o.iterDesired + o.stepsBetween ∧
      o.iterDesired ≤ k * o.stepsBetween ∧ k ≤ ws.length ∧ ws' = ws.drop k := by
  unfold valueTrain at h
  obtain ⟨b, -, h⟩ := Option.bind_eq_some_iff.1 h
  split at h
  · cases h
  · obtain ⟨h1, h2, h3⟩ := valueRounds_spec bench o V hk ws 0 _ r ws' (Nat.zero_le _) h
    refine ⟨h1, rounds o.iterDesired o.stepsBetween, ?_, ?_, h2, h3⟩
    · have := Nat.div_mul_le_self (o.iterDesired + o.stepsBetween - 1) o.stepsBetween
      unfold rounds; omega
    · have := Nat.lt_div_mul_add hk (a := o.iterDesired + o.stepsBetween - 1)
      unfold rounds; omega

theorem valueRounds_stuck (bench : Bool) (o : ValueOpt) (V : D → Option L) (hk : o.stepsBetween = 0) (ws : List (Draws D L))
    (iter : ℕ) (hd : iter < o.iterDesired) (s : ValueSt D L) : valueRounds bench o V ws iter s = none := by
  induction ws generalizing s with
  | nil => unfold valueRounds; rw [if_pos hd]
  | cons w ws ih =>
    unfold valueRounds
    rw [if_pos hd]
    simp only
    split
    · rfl
    · rw [if_neg (by omega), hk]
      exact ih _

/-- With `num_steps_between_sampling = 0` the loop never ends, however many rounds of samples are drawn. -/
theorem C113_stuck (bench : Bool) (o : ValueOpt) (V : D → Option L) (hk : o.stepsBetween = 0) (hd : 0 < o.iterDesired)
    (init : List D) (ws : List (Draws D L)) (s : ValueSt D L) : valueTrain bench o V init ws s = none := by
  unfold valueTrain
  rw [Option.bind_eq_none_iff]
  intro b _
  split
  · rfl
  · exact valueRounds_stuck bench o V hk ws 0 hd _

/-- What `train_no_benchmark` keeps: every adversarial sample stands next to its label, and the baseline buffers are as they were. -/
def KeepsNB (P : D → L → Prop) (b b' : Buffers D L) : Prop :=
  (List.Forall₂ P b.advData b.advLabel → List.Forall₂ P b'.advData b'.advLabel) ∧ b'.randData = b.randData ∧
    b'.randLabel = b.randLabel

theorem KeepsNB.trans {P : D → L → Prop} {a b c : Buffers D L} (h : KeepsNB P a b) (h' : KeepsNB P b c) : KeepsNB P a c :=
  ⟨fun e => h'.1 (h.1 e), h'.2.1.trans h.2.1, h'.2.2.trans h.2.2⟩

theorem keepsNB_push {P : D → L → Prop} (b : Buffers D L) {ad : List D} {al : List L} (h : List.Forall₂ P ad al) :
    KeepsNB P b (b.push ad al [] []) :=
  ⟨fun e => List.rel_append e h, List.append_nil _, List.append_nil _⟩

theorem keepsNB_trim {P : D → L → Prop} (b : Buffers D L) (n limit : ℕ) : KeepsNB P b (b.trimNB n limit) := by
  unfold Buffers.trimNB
  split
  · exact ⟨fun e => List.forall₂_drop n e, rfl, rfl⟩
  · exact ⟨id, rfl, rfl⟩

theorem keepsNB_iter {P : D → L → Prop} {numExtra limit : ℕ} {V : D → Option L} (hV : ∀ x v, V x = some v → P x v)
    {b b' : Buffers D L} {w : Draws D L} (hw : List.Forall₂ P w.advData w.advLabel)
    (h : b.iterNB numExtra limit V w = some b') : KeepsNB P b b' := by
  unfold Buffers.iterNB at h
  obtain ⟨e, he, rfl⟩ := Option.map_eq_some_iff.1 h
  exact (keepsNB_trim b _ _).trans ((keepsNB_push _ hw).trans ((keepsNB_trim _ _ _).trans
    (keepsNB_push _ ((getSamples_spec he).2.2.imp hV))))

theorem trimNB_push_length (b : Buffers D L) (n limit M : ℕ) {ad : List D} {al : List L} (hn : ad.length = n)
    (h1 : b.advData.length ≤ M) (h2 : limit ≤ M) (h3 : n ≤ M) : ((b.trimNB n limit).push ad al [] []).advData.length ≤ M := by
  unfold Buffers.trimNB Buffers.push
  split
  · simp [hn]; omega
  · simp [hn]; omega

theorem valueRounds_nb {P : D → L → Prop} (o : ValueOpt) (V : D → Option L) (hV : ∀ x v, V x = some v → P x v)
    (ws : List (Draws D L)) (hw : ∀ w ∈ ws, List.Forall₂ P w.advData w.advLabel) (iter : ℕ) (s r : ValueSt D L)
    (ws' : List (Draws D L)) (h : valueRounds false o V ws iter s = some (r, ws')) :
    KeepsNB P s.buf r.buf ∧
      (∀ M, s.buf.advData.length ≤ M → o.maxBuffer ≤ M → o.numExtra ≤ M → (∀ w ∈ ws, w.advData.length ≤ M) →
        r.buf.advData.length ≤ M) := by
  induction ws generalizing iter s with
  | nil =>
    unfold valueRounds at h
    split at h
    · cases h
    · cases h
      exact ⟨⟨id, rfl, rfl⟩, fun M h _ _ _ => h⟩
  | cons w ws ih =>
    unfold valueRounds at h
    split at h
    · rename_i hlt
      simp only [Bool.false_eq_true, if_false] at h
      split at h
      · cases h
      · rename_i b hb
        split at h
        · cases h
        · rename_i hs
          obtain ⟨k1, k2⟩ := ih (fun w' hw' => hw w' (List.mem_cons_of_mem _ hw')) _ _ h
          refine ⟨(keepsNB_iter hV (hw w List.mem_cons_self) hb).trans k1, ?_⟩
          · intro M m1 m2 m3 m4
            refine k2 M ?_ m2 m3 fun w' hw' => m4 w' (List.mem_cons_of_mem _ hw')
            unfold Buffers.iterNB at hb
            obtain ⟨e, he, rfl⟩ := Option.map_eq_some_iff.1 hb
            exact trimNB_push_length _ _ _ _ (getSamples_spec he).1
              (trimNB_push_length _ _ _ _ rfl m1 m2 (m4 w List.mem_cons_self)) m2 m3
    · cases h
      exact ⟨⟨id, rfl, rfl⟩, fun M h _ _ _ => h⟩

theorem iterNB_rand {numExtra limit : ℕ} {V : D → Option L} {b b' : Buffers D L} {w : Draws D L}
    (h : b.iterNB numExtra limit V w = some b') : b'.randData = b.randData := by
  unfold Buffers.iterNB at h
  obtain ⟨e, -, rfl⟩ := Option.map_eq_some_iff.1 h
  have ht : ∀ (c : Buffers D L) n, (c.trimNB n limit).randData = c.randData := by
    intro c n; unfold Buffers.trimNB; split <;> rfl
  simp [Buffers.push, ht]

theorem iterNB_ne_nil {numExtra limit : ℕ} {V : D → Option L} {b b' : Buffers D L} {w : Draws D L}
    (h : b.iterNB numExtra limit V w = some b') (hw : 0 < numExtra + w.advData.length) : b'.advData ≠ [] := by
  unfold Buffers.iterNB at h
  obtain ⟨e, he, rfl⟩ := Option.map_eq_some_iff.1 h
  have h1 := (getSamples_spec he).1
  intro hn
  have h2 := congrArg List.length hn
  rcases Nat.eq_zero_or_pos numExtra with h0 | h0
  · subst h0
    have ht : ∀ c : Buffers D L, (c.trimNB 0 limit).advData = c.advData := by
      intro c; unfold Buffers.trimNB; split <;> simp
    simp only [Buffers.push, List.length_append, List.length_nil, ht] at h2
    omega
  · simp only [Buffers.push, List.length_append, List.length_nil] at h2
    omega

theorem valueRounds_nb_step (o : ValueOpt) (V : D → Option L) (ws : List (Draws D L))
    (hw : ∀ w ∈ ws, 0 < o.numExtra + w.advData.length) (iter : ℕ)
    (s r : ValueSt D L) (ws' : List (Draws D L)) (h : valueRounds false o V ws iter s = some (r, ws')) :
    r.buf.randData = s.buf.randData ∧ (iter < o.iterDesired ∨ s.buf.advData ≠ [] → r.buf.advData ≠ []) := by
  induction ws generalizing iter s with
  | nil =>
    unfold valueRounds at h
    split at h
    · cases h
    · rename_i hc
      cases h
      exact ⟨rfl, fun h => h.resolve_left hc⟩
  | cons w ws ih =>
    unfold valueRounds at h
    split at h
    · simp only [Bool.false_eq_true, if_false] at h
      split at h
      · cases h
      · rename_i b hb
        split at h
        · cases h
        · obtain ⟨k1, k2⟩ := ih (fun w' hw' => hw w' (List.mem_cons_of_mem _ hw')) _ _ h
          exact ⟨k1.trans (iterNB_rand hb), fun _ => k2 (Or.inr (iterNB_ne_nil hb (hw w List.mem_cons_self)))⟩
    · rename_i hc
      cases h
      exact ⟨rfl, fun h => h.resolve_left hc⟩

theorem keepsNB_init {P : D → L → Prop} {size : ℕ} {V : D → Option L} (hV : ∀ x v, V x = some v → P x v) {draws : List D}
    {b b' : Buffers D L} (h : b.initNB size V draws = some b') :
    KeepsNB P b b' ∧ b'.advData.length = max b.advData.length size := by
  unfold Buffers.initNB at h
  split at h
  · obtain ⟨r, hr, rfl⟩ := Option.map_eq_some_iff.1 h
    obtain ⟨r1, -, r3⟩ := getSamples_spec hr
    refine ⟨keepsNB_push _ (r3.imp hV), ?_⟩
    simp [Buffers.push, r1]; omega
  · cases h
    exact ⟨⟨id, rfl, rfl⟩, by omega⟩

/-- **C113** (`train_no_benchmark`). The adversarial buffer stays aligned with its labels and within the larger of its size, the limit, the
initial size and the size of one batch; the baseline buffers are not touched. -/
theorem C113_no_benchmark {P : D → L → Prop} (o : ValueOpt) (V : D → Option L) (hV : ∀ x v, V x = some v → P x v) (init : List D)
    (ws ws' : List (Draws D L)) (hw : ∀ w ∈ ws, List.Forall₂ P w.advData w.advLabel) (s r : ValueSt D L)
    (hs : List.Forall₂ P s.buf.advData s.buf.advLabel) (h : valueTrain false o V init ws s = some (r, ws')) :
    List.Forall₂ P r.buf.advData r.buf.advLabel ∧ r.buf.randData = s.buf.randData ∧ r.buf.randLabel = s.buf.randLabel ∧
      ∀ M, s.buf.advData.length ≤ M → o.initBuffer ≤ M → o.maxBuffer ≤ M → o.numExtra ≤ M →
        (∀ w ∈ ws, w.advData.length ≤ M) → r.buf.advData.length ≤ M := by
  unfold valueTrain at h
  obtain ⟨b, hb, h⟩ := Option.bind_eq_some_iff.1 h
  simp only [Bool.false_eq_true, if_false] at hb
  split at h
  · cases h
  · obtain ⟨k1, k2⟩ := keepsNB_init hV hb
    obtain ⟨l1, l2⟩ := valueRounds_nb o V hV ws hw 0 _ r ws' h
    obtain ⟨m1, m2, m3⟩ := k1.trans l1
    exact ⟨m1 hs, m2, m3, fun M a1 a2 a3 a4 a5 => l2 M (by simp only [k2]; omega) a3 a4 a5⟩

/-- `train` cannot run on buffers of different sizes. -/
theorem C113_train_mismatch (o : ValueOpt) (V : D → Option L) (hd : 0 < o.iterDesired) (init : List D) (ws : List (Draws D L))
    (s : ValueSt D L) (h : s.buf.advData.length ≠ s.buf.randData.length) : valueTrain true o V init ws s = none := by
  unfold valueTrain
  rw [Option.bind_eq_none_iff]
  intro b hb
  simp only [if_true] at hb
  have hne : b.advData.length ≠ b.randData.length := by
    unfold Buffers.init at hb
    split at hb
    · obtain ⟨r, -, rfl⟩ := Option.map_eq_some_iff.1 hb
      simp only [Buffers.push, List.length_append]
      omega
    · cases hb
      exact h
  split
  · rfl
  · unfold valueRounds
    rw [if_pos hd]
    cases ws with
    | nil => rfl
    | cons w ws =>
      have : b.iter o.useLimits o.numExtra o.maxBuffer V w = none := by
        unfold Buffers.iter
        rw [if_neg fun e => hne e.1]
      simp [this]

/-- **C113** (histories that mix the two). After any call of `train_no_benchmark` that takes at least one step and whose rounds draw
at least one sample, on a learner whose baseline buffer is empty, `train` always raises. -/
theorem C113_no_mix (o o' : ValueOpt) (V : D → Option L) (hd : 0 < o.iterDesired)
    (hd' : 0 < o'.iterDesired) (init init' : List D) (ws ws' ws2 : List (Draws D L))
    (hw : ∀ w ∈ ws, 0 < o.numExtra + w.advData.length) (s r : ValueSt D L)
    (hs : s.buf.randData = []) (h : valueTrain false o V init ws s = some (r, ws')) :
    valueTrain true o' V init' ws2 r = none := by
  refine C113_train_mismatch o' V hd' init' ws2 r ?_
  unfold valueTrain at h
  obtain ⟨b, hb, h⟩ := Option.bind_eq_some_iff.1 h
  simp only [Bool.false_eq_true, if_false] at hb
  split at h
  · cases h
  · obtain ⟨k1, k2⟩ := valueRounds_nb_step o V ws hw 0 _ r ws' h
    have hr : b.randData = s.buf.randData := by
      unfold Buffers.initNB at hb
      split at hb
      · obtain ⟨e, -, rfl⟩ := Option.map_eq_some_iff.1 hb
        simp [Buffers.push]
      · cases hb
        rfl
    simp only [hr, hs] at k1
    rw [k1]
    exact fun e => k2 (Or.inl hd) (List.length_eq_zero_iff.1 e)

theorem iter_isSome {P : D → L → Prop} {useLimits : Bool} {numExtra limit : ℕ} {V : D → Option L}
    (hV : ∀ x v, V x = some v → P x v) (htot : ∀ x, (V x).isSome) {b : Buffers D L} (hb : Labelled P b) {w : Draws D L}
    (hw : List.Forall₂ P w.advData w.advLabel ∧ w.advData.length ≤ w.rand.length ∧ w.advData.length ≤ w.lim.length ∧
      numExtra ≤ w.extra.length) : (b.iter useLimits numExtra limit V w).isSome := by
  have := C61_assertion (useLimits := useLimits) (limit := limit) hV htot (ws := [w]) hb
    (fun w' hw' => by rw [List.mem_singleton.1 hw']; exact hw)
  unfold Buffers.run at this
  cases h : b.iter useLimits numExtra limit V w with
  | none => simp [h] at this
  | some b' => rfl

theorem valueRounds_train {P : D → L → Prop} (o : ValueOpt) (V : D → Option L) (hV : ∀ x v, V x = some v → P x v)
    (ws : List (Draws D L)) (hw : ∀ w ∈ ws, List.Forall₂ P w.advData w.advLabel) (iter : ℕ) (s r : ValueSt D L)
    (hs : Labelled P s.buf) (ws' : List (Draws D L)) (h : valueRounds true o V ws iter s = some (r, ws')) :
    Labelled P r.buf ∧
      ∀ M, s.buf.advData.length ≤ M → o.maxBuffer ≤ M → o.numExtra ≤ M → (∀ w ∈ ws, w.advData.length ≤ M) →
        r.buf.advData.length ≤ M := by
  induction ws generalizing iter s with
  | nil =>
    unfold valueRounds at h
    split at h
    · cases h
    · cases h
      exact ⟨hs, fun M h _ _ _ => h⟩
  | cons w ws ih =>
    unfold valueRounds at h
    split at h
    · simp only [if_true] at h
      split at h
      · cases h
      · rename_i b hb
        split at h
        · cases h
        · obtain ⟨i1, i2⟩ := iter_spec hs (hw w List.mem_cons_self) hV hb
          obtain ⟨k1, k2⟩ := ih (fun w' hw' => hw w' (List.mem_cons_of_mem _ hw')) _ _ i1 h
          exact ⟨k1, fun M m1 m2 m3 m4 => k2 M (i2 M m1 m2 (m4 w List.mem_cons_self) m3) m2 m3
            fun w' hw' => m4 w' (List.mem_cons_of_mem _ hw')⟩
    · cases h
      exact ⟨hs, fun M h _ _ _ => h⟩

/-- **C113** (`train`). Both pairs of buffers stay aligned, of one size, and within the larger of their size, the initial size, the limit
and the size of one batch. -/
theorem C113_train {P : D → L → Prop} (o : ValueOpt) (V : D → Option L) (hV : ∀ x v, V x = some v → P x v) (init : List D)
    (ws ws' : List (Draws D L)) (hw : ∀ w ∈ ws, List.Forall₂ P w.advData w.advLabel) (s r : ValueSt D L)
    (hs : Labelled P s.buf) (h : valueTrain true o V init ws s = some (r, ws')) :
    Labelled P r.buf ∧
      ∀ M, s.buf.advData.length ≤ M → o.initBuffer ≤ M → o.maxBuffer ≤ M → o.numExtra ≤ M →
        (∀ w ∈ ws, w.advData.length ≤ M) → r.buf.advData.length ≤ M := by
  unfold valueTrain at h
  obtain ⟨b, hb, h⟩ := Option.bind_eq_some_iff.1 h
  simp only [if_true] at hb
  split at h
  · cases h
  · obtain ⟨k1, k2⟩ := C61_init hV hs hb
    obtain ⟨l1, l2⟩ := valueRounds_train o V hV ws hw 0 _ r k1 ws' h
    exact ⟨l1, fun M a1 a2 a3 a4 a5 => l2 M (by simp only [k2]; omega) a3 a4 a5⟩

theorem valueRounds_isSome {P : D → L → Prop} (bench : Bool) (o : ValueOpt) (V : D → Option L) (hV : ∀ x v, V x = some v → P x v)
    (htot : ∀ x, (V x).isSome) (ws : List (Draws D L))
    (hw : ∀ w ∈ ws, List.Forall₂ P w.advData w.advLabel ∧ w.advData.length ≤ w.rand.length ∧
      w.advData.length ≤ w.lim.length ∧ o.numExtra ≤ w.extra.length) (iter : ℕ) (s : ValueSt D L)
    (hs : bench = true → Labelled P s.buf) (hl : o.iterDesired ≤ iter + ws.length * o.stepsBetween) :
    (valueRounds bench o V ws iter s).isSome := by
  induction ws generalizing iter s with
  | nil =>
    unfold valueRounds
    rw [if_neg (by simp at hl; omega)]
    rfl
  | cons w ws ih =>
    have hw1 := hw w List.mem_cons_self
    have hwr := fun w' hw' => hw w' (List.mem_cons_of_mem _ hw')
    unfold valueRounds
    split
    · rename_i hlt
      obtain ⟨h1, -⟩ := valueInner_spec o.iterDesired o.stepsBetween (iter, s.total) hlt
      have hl' : o.iterDesired ≤ (valueInner o.iterDesired o.stepsBetween (iter, s.total)).1 + ws.length * o.stepsBetween := by
        rw [h1]
        simp only [List.length_cons, Nat.succ_mul] at hl ⊢
        omega
      cases bench with
      | true =>
        obtain ⟨b, hb⟩ := Option.isSome_iff_exists.1
          (iter_isSome (useLimits := o.useLimits) (limit := o.maxBuffer) hV htot (hs rfl) hw1)
        have hb' := (iter_spec (hs rfl) hw1.1 hV hb).1
        simp only [if_true, hb]
        rw [if_neg]
        · exact ih hwr _ _ (fun _ => hb') hl'
        · have e1 := hb'.1.length_eq
          have e2 := hb'.2.1.length_eq
          have e3 := hb'.2.2
          simp only [Buffers.stepOk, Bool.not_true, Bool.false_or, decide_eq_false_iff_not]
          intro hc
          exact hc.2 ⟨e3, by omega⟩
      | false =>
        obtain ⟨e, he⟩ := Option.isSome_iff_exists.1 (getSamples_total htot hw1.2.2.2)
        simp only [Bool.false_eq_true, if_false, Buffers.iterNB, he, Option.map_some]
        rw [if_neg (by simp [Buffers.stepOk])]
        exact ih hwr _ _ (fun h => by cases h) hl'
    · rfl

/-- **C113** (the calls return). On aligned buffers, with a value function that is defined everywhere, enough draws and an initial buffer
that is not empty, neither call raises. -/
theorem C113_returns {P : D → L → Prop} (bench : Bool) (o : ValueOpt) (V : D → Option L) (hV : ∀ x v, V x = some v → P x v)
    (htot : ∀ x, (V x).isSome) (hi : 0 < o.initBuffer) (init : List D) (hinit : o.initBuffer ≤ init.length)
    (ws : List (Draws D L))
    (hw : ∀ w ∈ ws, List.Forall₂ P w.advData w.advLabel ∧ w.advData.length ≤ w.rand.length ∧
      w.advData.length ≤ w.lim.length ∧ o.numExtra ≤ w.extra.length) (s : ValueSt D L)
    (hs : bench = true → Labelled P s.buf) (hl : o.iterDesired ≤ ws.length * o.stepsBetween) :
    (valueTrain bench o V init ws s).isSome := by
  unfold valueTrain
  cases bench with
  | true =>
    obtain ⟨b, hb⟩ : ∃ b, s.buf.init o.initBuffer V init = some b := by
      unfold Buffers.init
      split
      · obtain ⟨e, he⟩ := Option.isSome_iff_exists.1
          (getSamples_total htot (show o.initBuffer - s.buf.advData.length ≤ init.length by omega))
        exact ⟨_, by rw [he]; rfl⟩
      · exact ⟨_, rfl⟩
    obtain ⟨k1, k2⟩ := C61_init hV (hs rfl) hb
    simp only [if_true, hb, Option.bind_some]
    rw [if_neg]
    · exact valueRounds_isSome true o V hV htot ws hw 0 _ (fun _ => k1) (by omega)
    · have e1 := k1.1.length_eq
      have e2 := k1.2.1.length_eq
      have e3 := k1.2.2
      rintro ⟨-, -, hc⟩
      simp only [Buffers.initOk, Buffers.stepOk, Bool.not_true, Bool.false_or, Bool.and_eq_false_iff, decide_eq_false_iff_not] at hc
      rcases hc with hc | hc
      · omega
      · exact hc ⟨e3, by omega⟩
  | false =>
    obtain ⟨b, hb⟩ : ∃ b, s.buf.initNB o.initBuffer V init = some b := by
      unfold Buffers.initNB
      split
      · obtain ⟨e, he⟩ := Option.isSome_iff_exists.1
          (getSamples_total htot (show o.initBuffer - s.buf.advData.length ≤ init.length by omega))
        exact ⟨_, by rw [he]; rfl⟩
      · exact ⟨_, rfl⟩
    simp only [Bool.false_eq_true, if_false, hb, Option.bind_some]
    rw [if_neg (by simp [Buffers.initOk])]
    exact valueRounds_isSome false o V hV htot ws hw 0 _ (fun h => by cases h) (by omega)

/-- Three steps, two per round, limit 3, `V x = x + 100`. -/
def exValueOpt : ValueOpt := ⟨1, 1, 3, 2, 1, 3, false⟩

def exValueDraws : List (Draws ℕ ℕ) :=
  [⟨[5], [105], [6], [6], [7]⟩, ⟨[8], [108], [9], [9], [10]⟩, ⟨[11], [111], [12], [12], [13]⟩]

/-- Two of the three rounds are used. -/
example : (valueTrain true exValueOpt (fun x => some (x + 100)) [1] exValueDraws ⟨⟨[], [], [], []⟩, 0⟩).map
    (fun r => (r.1.buf.advData, r.1.buf.randData, r.1.total, r.2.length)) = some ([7, 8, 10], [7, 9, 10], 3, 1) := by
  decide +kernel

/-- A learner trained without the baseline, and then with it. -/
example : ∃ r ws', valueTrain false exValueOpt (fun x => some (x + 100)) [1] exValueDraws ⟨⟨[], [], [], []⟩, 0⟩ = some (r, ws') ∧
    r.buf.advData = [7, 8, 10] ∧ r.buf.randData = [] ∧ r.total = 3 ∧
    ∀ init ws, valueTrain true exValueOpt (fun x => some (x + 100)) init ws r = none := by
  obtain ⟨⟨r, ws'⟩, h⟩ := Option.isSome_iff_exists.1 (C113_returns (P := fun x v => v = x + 100) false exValueOpt
    (fun x => some (x + 100)) (fun x v h => (Option.some.inj h).symm) (fun _ => rfl) (by decide) [1] (by decide)
    exValueDraws (by
      intro w hw
      simp only [exValueDraws, List.mem_cons, List.not_mem_nil, or_false] at hw
      rcases hw with rfl | rfl | rfl <;> simp [exValueOpt])
    ⟨⟨[], [], [], []⟩, 0⟩ (fun h => by cases h) (by decide))
  have e : (valueTrain false exValueOpt (fun x => some (x + 100)) [1] exValueDraws ⟨⟨[], [], [], []⟩, 0⟩).map
      (fun r => (r.1.buf.advData, r.1.buf.randData, r.1.total)) = some ([7, 8, 10], [], 3) := by decide +kernel
  rw [h] at e
  simp only [Option.map_some, Option.some.injEq, Prod.mk.injEq] at e
  refine ⟨r, ws', h, e.1, e.2.1, e.2.2, fun init ws => ?_⟩
  exact C113_no_mix exValueOpt exValueOpt _ (by decide) (by decide) [1] init exValueDraws ws' ws
    (fun w _ => by simp [exValueOpt]) _ r rfl h

end NNL.Props
