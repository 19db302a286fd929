import Verif.Model.PbData
import Verif.Spec.PbData
import Verif.Model.Latent
import Mathlib.Tactic.Linarith
import Mathlib.Tactic.Positivity
import Mathlib.Tactic.FieldSimp
import Mathlib.Tactic.Ring
import Mathlib.Data.Rat.Floor
import Mathlib.Algebra.Order.Group.MinMax

/-!
C117: what the generated data contain.
-/

namespace NNL.Props

open NNL NNL.Model NNL.Spec

variable {X P I K : Type}

theorem sample_some {W : PbWorld X P I} {k : ℕ} {x0 x1 : X} {c : I × I} {d : I} (h : W.sample k x0 = some (x1, c, d)) :
    W.read (W.sim^[2 * k] (W.reset x0)) = some x1 ∧ c = (W.cam (W.reset x0), W.cam (W.sim^[k] (W.reset x0))) ∧
      d = W.cam (W.sim^[2 * k] (W.reset x0)) := by
  simp only [PbWorld.sample, Option.bind_eq_some_iff, Option.some.injEq, Prod.mk.injEq] at h
  obtain ⟨a, h1, rfl, rfl, rfl⟩ := h
  rw [two_mul, Function.iterate_add_apply]
  exact ⟨h1, rfl, rfl⟩

/-- **C117** (rollouts). The states are a trajectory of the robot with `2 * num_step` simulation steps per period, and the images are those of
`pbImage`. -/
theorem C117_rollout {W : PbWorld X P I} {k N : ℕ} {x0 : X} {xs : List X} {Is : List I} (h : W.rollout k x0 N = some (xs, Is)) :
    ∃ t, PbTraj W (2 * k) x0 N t ∧ xs = (List.range (N + 1)).map t ∧ Is = (List.range (N + 2)).map (pbImage W k t) := by
  unfold PbWorld.rollout at h
  rw [Option.bind_eq_bind, Option.bind_eq_some_iff] at h
  obtain ⟨⟨r, c, d⟩, hr, h⟩ := h
  obtain ⟨-, rfl, -⟩ := sample_some hr
  clear hr
  induction N generalizing xs Is with
  | zero =>
    cases h
    exact ⟨fun _ => x0, ⟨rfl, fun n hn => absurd hn (Nat.not_lt_zero n)⟩, rfl, rfl⟩
  | succ N ih =>
    rw [List.range_succ, List.foldlM_append, Option.bind_eq_bind, Option.bind_eq_some_iff] at h
    obtain ⟨⟨ys, Js⟩, h1, h2⟩ := h
    obtain ⟨t, ht, rfl, rfl⟩ := ih h1
    simp only [List.foldlM_cons, List.foldlM_nil, Option.bind_eq_bind, Option.bind_eq_some_iff] at h2
    obtain ⟨s', ⟨x, hx, ⟨q, c, d⟩, hq, e1⟩, e2⟩ := h2
    cases e1
    cases e2
    have hx' : x = t N := by
      rw [List.getElem?_map, List.getElem?_range (by omega)] at hx
      simpa using hx.symm
    subst hx'
    obtain ⟨g1, -, rfl⟩ := sample_some hq
    have hle : ∀ n ≤ N, (fun n => if n ≤ N then t n else q) n = t n := fun n hn => if_pos hn
    refine ⟨fun n => if n ≤ N then t n else q, ⟨by simp [ht.start], ?_⟩, ?_, ?_⟩
    · intro n hn
      rcases Nat.lt_succ_iff_lt_or_eq.1 hn with hlt | rfl
      · simp only [if_pos hlt.le, if_pos (Nat.succ_le_of_lt hlt)]; exact ht.next n hlt
      · simp only [le_refl, if_true, Nat.not_succ_le_self, if_false]; exact g1
    · rw [List.range_succ (n := N + 1), List.map_append]
      congr 1
      · refine List.map_congr_left fun n hn => ?_
        rw [if_pos (Nat.lt_succ_iff.1 (List.mem_range.1 hn))]
      · simp
    · rw [List.range_succ (n := N + 2), List.map_append]
      congr 1
      · refine List.map_congr_left fun n hn => ?_
        rw [List.mem_range] at hn
        match n, hn with
        | 0, _ => simp [pbImage]
        | 1, _ => simp [pbImage]
        | n + 2, hn => simp only [pbImage]; rw [if_pos (by omega)]
      · simp [pbImage]

/-- A rollout is returned whenever the state can be read. -/
theorem C117_returns {W : PbWorld X P I} (hW : ∀ p, (W.read p).isSome) (k N : ℕ) (x0 : X) : ∃ r, W.rollout k x0 N = some r := by
  have hs : ∀ x, ∃ r, W.sample k x = some r := by
    intro x
    obtain ⟨x1, h1⟩ := Option.isSome_iff_exists.1 (hW (W.sim^[k] (W.sim^[k] (W.reset x))))
    exact ⟨_, by simp only [PbWorld.sample, h1, Option.bind_some]; rfl⟩
  obtain ⟨r, hr⟩ := hs x0
  unfold PbWorld.rollout
  rw [hr, Option.bind_eq_bind, Option.bind_some]
  suffices key : ∃ s : List X × List I, (List.range N).foldlM (fun (s : List X × List I) n => do
      let x ← s.1[n]?
      let q ← W.sample k x
      some (s.1 ++ [q.1], s.2 ++ [q.2.2])) ([x0], [r.2.1.1, r.2.1.2]) = some s ∧ s.1.length = N + 1 from ⟨_, key.choose_spec.1⟩
  induction N with
  | zero => exact ⟨_, rfl, rfl⟩
  | succ N ih =>
    obtain ⟨s, h1, h2⟩ := ih
    have hx : s.1[N]? = some (s.1[N]'(by omega)) := List.getElem?_eq_getElem _
    obtain ⟨q, hq⟩ := hs (s.1[N]'(by omega))
    refine ⟨(s.1 ++ [q.1], s.2 ++ [q.2.2]), ?_, by simp [h2]⟩
    rw [List.range_succ, List.foldlM_append, h1, Option.bind_eq_bind, Option.bind_some, List.foldlM_cons]
    simp [hx, hq]

/-- The row of period `n` of a trajectory. -/
def pbRowAt (W : PbWorld X P I) (k : ℕ) (t : ℕ → X) (n : ℕ) : PbRow X I :=
  (t n, t (n + 1), (pbImage W k t n, pbImage W k t (n + 1)), pbImage W k t (n + 2))

theorem pbRows_spec (W : PbWorld X P I) (k : ℕ) (t : ℕ → X) (N i M : ℕ) (hM : M ≤ N) (s : List (Option (PbRow X I)))
    (hs : i * N + N ≤ s.length) :
    ∃ s', (List.range M).foldlM (fun (s : List (Option (PbRow X I))) n => do
        let a ← ((List.range (N + 2)).map (pbImage W k t))[n]?
        let b ← ((List.range (N + 2)).map (pbImage W k t))[n + 1]?
        let c ← ((List.range (N + 2)).map (pbImage W k t))[n + 2]?
        let x ← ((List.range (N + 1)).map t)[n]?
        let x' ← ((List.range (N + 1)).map t)[n + 1]?
        if i * N + n < s.length then some (s.set (i * N + n) (some (x, x', (a, b), c))) else none) s = some s' ∧
      s'.length = s.length ∧ (∀ n < M, s'[i * N + n]? = some (some (pbRowAt W k t n))) ∧
      ∀ j, (j < i * N ∨ i * N + M ≤ j) → s'[j]? = s[j]? := by
  induction M with
  | zero => exact ⟨s, rfl, rfl, fun n hn => absurd hn (Nat.not_lt_zero n), fun _ _ => rfl⟩
  | succ M ih =>
    obtain ⟨s', h1, h2, h3, h4⟩ := ih (by omega)
    refine ⟨s'.set (i * N + M) (some (pbRowAt W k t M)), ?_, by simp [h2], ?_, ?_⟩
    · rw [List.range_succ (n := M), List.foldlM_append, h1, Option.bind_eq_bind, Option.bind_some, List.foldlM_cons]
      have hI : ∀ m, m < N + 2 → ((List.range (N + 2)).map (pbImage W k t))[m]? = some (pbImage W k t m) := by
        intro m hm; rw [List.getElem?_map, List.getElem?_range hm]; rfl
      have hX : ∀ m, m < N + 1 → ((List.range (N + 1)).map t)[m]? = some (t m) := by
        intro m hm; rw [List.getElem?_map, List.getElem?_range hm]; rfl
      rw [hI M (by omega), hI (M + 1) (by omega), hI (M + 2) (by omega), hX M (by omega), hX (M + 1) (by omega)]
      simp only [Option.bind_eq_bind, Option.bind_some]
      rw [if_pos (by omega)]
      rfl
    · intro n hn
      rcases Nat.lt_succ_iff_lt_or_eq.1 hn with hlt | rfl
      · rw [List.getElem?_set_ne (by omega)]; exact h3 n hlt
      · rw [List.getElem?_set_self (by omega)]
    · intro j hj
      rw [List.getElem?_set_ne (by omega)]
      exact h4 j (by omega)

/-- **C117** (data sets). Every row is written: row `i * N + n` holds period `n` of the trajectory from the `i`-th initial state. -/
theorem C117_dataset {W : PbWorld X P I} {k N R : ℕ} {x0 : ℕ → X} {d : List (Option (PbRow X I))} (h : W.dataset k N R x0 = some d) :
    d.length = R * N ∧ ∃ t : ℕ → ℕ → X, (∀ i < R, PbTraj W (2 * k) (x0 i) N (t i)) ∧
      ∀ i < R, ∀ n < N, d[i * N + n]? = some (some (t i n, t i (n + 1), (pbImage W k (t i) n, pbImage W k (t i) (n + 1)),
        pbImage W k (t i) (n + 2))) := by
  unfold PbWorld.dataset at h
  split at h
  swap
  · cases h
  suffices key : ∀ M, M ≤ R → ∀ d, (List.range M).foldlM (fun s i => (W.rollout k (x0 i) N).bind fun r => pbRows N i r s)
      (List.replicate (R * N) (none : Option (PbRow X I))) = some d → d.length = R * N ∧ ∃ t : ℕ → ℕ → X,
      (∀ i < M, PbTraj W (2 * k) (x0 i) N (t i)) ∧ ∀ i < M, ∀ n < N, d[i * N + n]? = some (some (pbRowAt W k (t i) n)) from
    key R le_rfl d h
  intro M hM
  induction M with
  | zero =>
    intro d hd
    cases hd
    exact ⟨by simp, fun _ => fun _ => x0 0, fun i hi => absurd hi (Nat.not_lt_zero i), fun i hi => absurd hi (Nat.not_lt_zero i)⟩
  | succ M ih =>
    intro d hd
    rw [List.range_succ, List.foldlM_append, Option.bind_eq_bind, Option.bind_eq_some_iff] at hd
    obtain ⟨d1, h1, h2⟩ := hd
    obtain ⟨g1, t, g2, g3⟩ := ih (by omega) d1 h1
    simp only [List.foldlM_cons, List.foldlM_nil, Option.bind_eq_bind, Option.bind_eq_some_iff] at h2
    obtain ⟨d2, ⟨⟨xs, Is⟩, hr, hrow⟩, e⟩ := h2
    cases e
    obtain ⟨u, hu, rfl, rfl⟩ := C117_rollout hr
    have hMN : M * N + N ≤ R * N := by rw [← Nat.succ_mul]; exact Nat.mul_le_mul_right N hM
    obtain ⟨s', q1, q2, q3, q4⟩ := pbRows_spec W k u N M N le_rfl d1 (by omega)
    unfold pbRows at hrow
    rw [q1] at hrow
    cases hrow
    refine ⟨by omega, fun i => if i = M then u else t i, ?_, ?_⟩
    · intro i hi
      by_cases hiM : i = M
      · subst hiM; simpa using hu
      · simp only [hiM, if_false]; exact g2 i (by omega)
    · intro i hi n hn
      by_cases hiM : i = M
      · subst hiM; simpa using q3 n hn
      · simp only [hiM, if_false]
        have hlt : i + 1 ≤ M := by omega
        have := Nat.mul_le_mul_right N hlt
        rw [Nat.succ_mul] at this
        rw [q4 _ (Or.inl (by omega))]
        exact g3 i (by omega) n hn

/-- **C117** (`data_to_rollouts`). It returns the rollout of every given state, in order. -/
theorem C117_to_rollouts {W : PbWorld X P I} {k N : ℕ} {xs : List X} {a : List (List X)} {b : List (List I)}
    (h : W.toRollouts k N xs = some (a, b)) : a.length = xs.length ∧ b.length = xs.length ∧
      ∀ (j : ℕ) (x : X), xs[j]? = some x → ∃ r, W.rollout k x N = some r ∧ a[j]? = some r.1 ∧ b[j]? = some r.2 := by
  simp only [PbWorld.toRollouts, Option.map_eq_some_iff, Prod.mk.injEq] at h
  obtain ⟨l, hl, rfl, rfl⟩ := h
  simp only [List.length_map]
  induction xs generalizing l with
  | nil =>
    rw [List.mapM_nil] at hl
    cases hl
    exact ⟨rfl, rfl, fun j x hx => by simp at hx⟩
  | cons y ys ih =>
    rw [List.mapM_cons] at hl
    simp only [Option.bind_eq_bind, Option.bind_eq_some_iff] at hl
    obtain ⟨r, hr, l', hl', e⟩ := hl
    cases e
    obtain ⟨h1, h2, h3⟩ := ih l' hl'
    refine ⟨by simp [h1], by simp [h1], ?_⟩
    intro j x hx
    match j with
    | 0 =>
      simp only [List.getElem?_cons_zero, Option.some.injEq] at hx
      subst hx
      exact ⟨r, hr, rfl, rfl⟩
    | j + 1 =>
      obtain ⟨r', g⟩ := h3 j x (by simpa using hx)
      exact ⟨r', by simpa using g⟩

/-- A data set is returned whenever the state can be read and rollouts are not empty. -/
theorem C117_dataset_returns {W : PbWorld X P I} (hW : ∀ p, (W.read p).isSome) (k N R : ℕ) (hN : 1 ≤ N) (x0 : ℕ → X) :
    ∃ d, W.dataset k N R x0 = some d := by
  unfold PbWorld.dataset
  rw [if_pos hN]
  suffices key : ∀ M, M ≤ R → ∃ d : List (Option (PbRow X I)), (List.range M).foldlM
      (fun s i => (W.rollout k (x0 i) N).bind fun r => pbRows N i r s) (List.replicate (R * N) none) = some d ∧ d.length = R * N by
    obtain ⟨d, hd, -⟩ := key R le_rfl
    exact ⟨d, hd⟩
  intro M hM
  induction M with
  | zero => exact ⟨_, rfl, by simp⟩
  | succ M ih =>
    obtain ⟨d1, h1, h2⟩ := ih (by omega)
    obtain ⟨⟨xs, Is⟩, hr⟩ := C117_returns hW k N (x0 M)
    obtain ⟨u, hu, rfl, rfl⟩ := C117_rollout hr
    have hMN : M * N + N ≤ R * N := by rw [← Nat.succ_mul]; exact Nat.mul_le_mul_right N hM
    obtain ⟨s', q1, q2, -⟩ := pbRows_spec W k u N M N le_rfl d1 (by omega)
    refine ⟨s', ?_, by omega⟩
    rw [List.range_succ, List.foldlM_append, h1, Option.bind_eq_bind, Option.bind_some, List.foldlM_cons]
    simp only [hr, Option.bind_some, Option.bind_eq_bind]
    unfold pbRows
    rw [q1]
    rfl

/-- **C117** (targets). The target that the training builds from a row is the image pair of the following row of the same rollout. -/
theorem C117_target {W : PbWorld X P I} {k N R : ℕ} {x0 : ℕ → X} {d : List (Option (PbRow X I))} (h : W.dataset k N R x0 = some d) {i n : ℕ}
    (hi : i < R) (hn : n + 1 < N) : ∃ r r', d[i * N + n]? = some (some r) ∧ d[i * N + (n + 1)]? = some (some r') ∧
      nextTarget r.2.2.1 r.2.2.2 = r'.2.2.1 ∧ r.2.1 = r'.1 := by
  obtain ⟨-, t, -, h2⟩ := C117_dataset h
  exact ⟨_, _, h2 i hi n (by omega), h2 i hi (n + 1) hn, rfl, rfl⟩

/-- **C117** (times). If setting the state that was read restores the simulator, the images of a rollout show the simulation of the initial state after
0, `num_step`, `2 * num_step`, `4 * num_step`, `6 * num_step` ... steps. -/
theorem C117_times {W : PbWorld X P I} (hW : ∀ p x, W.read p = some x → W.reset x = p) {k N : ℕ} {x0 : X} {t : ℕ → X}
    (ht : PbTraj W (2 * k) x0 N t) : (∀ n ≤ N, W.reset (t n) = W.sim^[2 * k * n] (W.reset x0)) ∧
      pbImage W k t 0 = W.cam (W.reset x0) ∧ pbImage W k t 1 = W.cam (W.sim^[k] (W.reset x0)) ∧
      ∀ n < N, pbImage W k t (n + 2) = W.cam (W.sim^[2 * k * (n + 1)] (W.reset x0)) := by
  have h1 : ∀ n ≤ N, W.reset (t n) = W.sim^[2 * k * n] (W.reset x0) := by
    intro n
    induction n with
    | zero => intro _; rw [ht.start]; rfl
    | succ n ih =>
      intro hn
      rw [hW _ _ (ht.next n (by omega)), ih (by omega), ← Function.iterate_add_apply, Nat.mul_succ, Nat.add_comm]
  refine ⟨h1, by simp only [pbImage, ht.start], by simp only [pbImage, ht.start], fun n hn => ?_⟩
  simp only [pbImage]
  rw [h1 n hn.le, ← Function.iterate_add_apply, Nat.mul_succ, Nat.add_comm]

/-- **C117** (contradicted). The next image is not a function of the image pair, even for a deterministic simulator whose images show the whole state:
a rollout begins with half a period between its images and goes on with a whole one. -/
theorem C117_consistent_counterexample : ∃ (W : PbWorld ℕ ℕ ℕ) (x0 : ℕ → ℕ) (d : List (Option (PbRow ℕ ℕ))),
    (∀ p x, W.read p = some x → W.reset x = p) ∧ Function.Injective W.cam ∧ W.dataset 1 2 2 x0 = some d ∧
      ∃ r ∈ d, ∃ r' ∈ d, r.map (fun r => r.2.2.1) = r'.map (fun r => r.2.2.1) ∧ r.map (fun r => r.2.2.2) ≠ r'.map (fun r => r.2.2.2) := by
  refine ⟨⟨id, fun p => p + 1, id, some⟩, id, [some (0, 2, (0, 1), 2), some (2, 4, (1, 2), 4), some (1, 3, (1, 2), 3), some (3, 5, (2, 3), 5)],
    fun p x h => by cases h; rfl, fun _ _ h => h, rfl, some (2, 4, (1, 2), 4), by decide, some (1, 3, (1, 2), 3), by decide, by decide, by decide⟩

/-- **C117** (the period). The simulated time of a period is at most `dt` and less than two time steps short of it. -/
theorem C117_period [Field K] [LinearOrder K] [IsStrictOrderedRing K] [FloorSemiring K] {ts dt : K} (hts : 0 < ts) (hdt : 0 ≤ dt) :
    ts * (2 * numStep ts dt : ℕ) ≤ dt ∧ dt < ts * (2 * numStep ts dt : ℕ) + 2 * ts ∧
      (ts * (2 * numStep ts dt : ℕ) = dt ↔ ∃ m : ℕ, dt = 2 * m * ts) := by
  have e : dt * ((1 / 2) / ts) = dt / (2 * ts) := by field_simp
  have hnn : 0 ≤ dt / (2 * ts) := by positivity
  have h1 := Nat.floor_le hnn
  have h2 := Nat.lt_floor_add_one (dt / (2 * ts))
  have hp : 0 < 2 * ts := by positivity
  rw [le_div_iff₀ hp] at h1
  rw [div_lt_iff₀ hp] at h2
  unfold numStep
  rw [e]
  push_cast
  refine ⟨by linarith, by linarith, fun h => ⟨⌊dt / (2 * ts)⌋₊, by linarith⟩, ?_⟩
  rintro ⟨m, rfl⟩
  have : (2 * m * ts) / (2 * ts) = (m : K) := by field_simp
  rw [this, Nat.floor_natCast]
  ring

/-- With a period shorter than two time steps nothing is simulated: the next state is what is read back at once, and all images agree. -/
theorem C117_short_period [Field K] [LinearOrder K] [IsStrictOrderedRing K] [FloorSemiring K] {ts dt : K} (hts : 0 < ts) (hdt : dt < 2 * ts)
    {W : PbWorld X P I} {x0 x1 : X} {c : I × I} {d : I} (h : W.sample (numStep ts dt) x0 = some (x1, c, d)) :
    W.read (W.reset x0) = some x1 ∧ c = (d, d) := by
  have h0 : numStep ts dt = 0 := by
    unfold numStep
    rw [Nat.floor_eq_zero, show dt * ((1 / 2) / ts) = dt / (2 * ts) by field_simp, div_lt_one (by positivity)]
    exact hdt
  rw [h0] at h
  obtain ⟨h1, h2, h3⟩ := sample_some h
  subst h3
  exact ⟨h1, h2⟩

/-- **C117** (initial states). They lie in the box, for both ways of drawing. -/
theorem C117_box [Field K] [LinearOrder K] [IsStrictOrderedRing K] (normal : Option (K × K)) {lo up g u : K} (h : lo ≤ up) (h0 : 0 ≤ u)
    (h1 : u ≤ 1) : lo ≤ drawX0 normal lo up g u ∧ drawX0 normal lo up g u ≤ up := by
  rcases normal with _ | ⟨mean, std⟩
  · simp only [drawX0]
    constructor <;> nlinarith
  · exact ⟨le_max_right _ _, max_le (min_le_right _ _) h⟩

/-- **C117** (pixels). They lie in [0, 1]; for colours from 0 to 255 the clamping changes nothing, and a white pixel is stored as 0.9999 in grayscale. -/
theorem C117_pixels [Field K] [LinearOrder K] [IsStrictOrderedRing K] (gray : Bool) (c : K × K × K) :
    (∀ v ∈ storedPixel gray c, 0 ≤ v ∧ v ≤ 1) ∧
    (0 ≤ c.1 → c.1 ≤ 255 → 0 ≤ c.2.1 → c.2.1 ≤ 255 → 0 ≤ c.2.2 → c.2.2 ≤ 255 →
      storedPixel false c = [c.1 / 255, c.2.1 / 255, c.2.2 / 255] ∧
      storedPixel true c = [(2989 / 10000 * c.1 + 587 / 1000 * c.2.1 + 114 / 1000 * c.2.2) / 255]) ∧
    storedPixel true ((255, 255, 255) : K × K × K) = [9999 / 10000] := by
  have hin : ∀ v : K, 0 ≤ max 0 (min 1 v) ∧ max 0 (min 1 v) ≤ 1 := fun v => ⟨le_max_left _ _, max_le zero_le_one (min_le_left _ _)⟩
  have hid : ∀ v : K, 0 ≤ v → v ≤ 1 → max 0 (min 1 v) = v := fun v h0 h1 => by rw [min_eq_right h1, max_eq_right h0]
  refine ⟨?_, ?_, ?_⟩
  · intro v hv
    cases gray
    · simp only [storedPixel, Bool.false_eq_true, if_false, List.mem_cons, List.not_mem_nil, or_false] at hv
      rcases hv with rfl | rfl | rfl <;> exact hin _
    · simp only [storedPixel, if_true, List.mem_singleton] at hv
      subst hv
      exact hin _
  · intro a0 a1 b0 b1 d0 d1
    have hc : ∀ x : K, 0 ≤ x → x ≤ 255 → max 0 (min 1 (x / 255)) = x / 255 := fun x h0 h1 =>
      hid _ (by positivity) (by rw [div_le_one (by norm_num)]; exact h1)
    refine ⟨?_, ?_⟩
    · simp only [storedPixel, Bool.false_eq_true, if_false]
      rw [hc _ a0 a1, hc _ b0 b1, hc _ d0 d1]
    · simp only [storedPixel, if_true]
      rw [hc _ (by positivity) (by linarith)]
  · simp only [storedPixel, if_true]
    rw [hid] <;> norm_num

/-- **C117** (joint space). The state can be read for exactly one joint: it is then its position and velocity. -/
theorem C117_joints (js : List (JointState K)) (x : List K) : readJoints js = some x ↔ ∃ j, js = [j] ∧ x = [j.pos, j.vel] := by
  match js with
  | [] => simp [readJoints]
  | [j] => simp [readJoints, tensorOf, JointState.entries, eq_comm]
  | [j, j'] => simp [readJoints, tensorOf, JointState.entries]
  | j :: j' :: j'' :: l => simp [readJoints, tensorOf, JointState.entries]

/-- **C117** (images). The camera image can be stored exactly if it is square. -/
theorem C117_square (w h : ℕ) : imageFits w h = true ↔ w = h := by
  simp [imageFits, assignable]
  omega

/-! ## An example -/

/-- A point that moves by its velocity at every step. -/
def exPb : PbWorld (ℤ × ℤ) (ℤ × ℤ) ℤ := ⟨id, fun p => (p.1 + p.2, p.2), fun p => p.1, some⟩

example : exPb.rollout 1 (0, 3) 3 = some ([(0, 3), (6, 3), (12, 3), (18, 3)], [0, 3, 6, 12, 18]) := by decide
example : (exPb.dataset 1 2 2 (fun i => (0, i))).isSome := by decide
example : exPb.toRollouts 1 1 [(0, 1), (0, 2)] = some ([[(0, 1), (2, 1)], [(0, 2), (4, 2)]], [[0, 1, 2], [0, 2, 4]]) := by decide
example : ∀ p x, exPb.read p = some x → exPb.reset x = p := fun p x h => by cases h; rfl
/-- A period of a hundredth of a second: 2 steps of 1/240, which is a sixth less. -/
example : numStep (1 / 240 : ℚ) (1 / 100) = 1 := by
  rw [numStep, Nat.floor_eq_iff (by norm_num)]
  norm_num
example : readJoints [(⟨1, 2, [0, 0, 0, 0, 0, 0], 3⟩ : JointState ℤ)] = some [1, 2] := by decide
example : readJoints [(⟨1, 2, [0, 0, 0, 0, 0, 0], 3⟩ : JointState ℤ), ⟨4, 5, [0, 0, 0, 0, 0, 0], 6⟩] = none := by decide
example : drawX0 (some (0, 1)) (-1) 1 5 (1 / 2 : ℚ) = 1 ∧ drawX0 none (-1) 1 5 (1 / 4 : ℚ) = -1 / 2 := by norm_num [drawX0]

end NNL.Props
