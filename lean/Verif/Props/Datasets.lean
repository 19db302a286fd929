import Verif.Model.Datasets
import Verif.Spec.Datasets
import Verif.Props.Sampling
import Verif.Props.PoleSim

/-!
C129: data sets of simulated transitions.
-/

set_option linter.unusedSectionVars false

namespace NNL.Props

open NNL.Model NNL.Spec

variable {K : Type} [Field K] [LinearOrder K] [IsStrictOrderedRing K]

theorem copyInto_eq (buf src : List K) : ∀ n, n ≤ buf.length → n ≤ src.length →
    copyInto buf src n = some (src.take n ++ buf.drop n)
  | 0, _, _ => by simp [copyInto]
  | n + 1, h1, h2 => by
    rw [copyInto, copyInto_eq buf src n (by omega) (by omega)]
    have hs : src[n]? = some src[n] := List.getElem?_eq_getElem (by omega)
    have hl : n < (src.take n ++ buf.drop n).length := by simp; omega
    simp only [Option.bind_some, if_pos hl, hs, Option.map_some, Option.some.injEq]
    have ht : (src.take n).length = n := by simp; omega
    rw [List.set_append_right _ _ (by omega), ht, Nat.sub_self,
      List.drop_eq_getElem_cons (by omega : n < buf.length), List.set_cons_zero, List.take_add_one, hs]
    simp only [Option.toList_some, List.append_assoc, List.singleton_append]

theorem copyInto_all (buf src : List K) (h : src.length = buf.length) :
    copyInto buf src buf.length = some src := by
  rw [copyInto_eq buf src _ le_rfl h.ge, List.drop_length, List.append_nil, List.take_of_length_le h.le]

theorem forceLoop_spec (mask : List Bool) (u : List K) : ∀ (k i j : ℕ) (tau : List K), i + k = mask.length →
    tau.length = mask.length → j + (mask.drop i).count true = u.length →
    ∃ tau', forceLoop mask u k i j tau = some (u.length, tau') ∧ tau'.length = tau.length ∧
      (∀ p, p < i → tau'[p]? = tau[p]?) ∧ (∀ p, i ≤ p → mask[p]? = some false → tau'[p]? = some 0) ∧
      (((mask.drop i).zip (tau'.drop i)).filter fun p => p.1).map (fun p => p.2) = u.drop j
  | 0, i, j, tau, h1, h2, h3 => by
    have hd : mask.drop i = [] := List.drop_eq_nil_iff.2 (by omega)
    rw [hd] at h3
    simp only [List.count_nil, Nat.add_zero] at h3
    refine ⟨tau, by simp [forceLoop, h3], rfl, fun _ _ => rfl, fun p hp hm => ?_, ?_⟩
    · rw [List.getElem?_eq_none (by omega)] at hm
      cases hm
    · simp [hd, h3]
  | k + 1, i, j, tau, h1, h2, h3 => by
    have hi : i < mask.length := by omega
    have hg : mask[i]? = some mask[i] := List.getElem?_eq_getElem hi
    have hdm : mask.drop i = mask[i] :: mask.drop (i + 1) := List.drop_eq_getElem_cons hi
    unfold forceLoop
    rw [hg]
    have fin : ∀ (tau' : List K) (v : K), tau'.length = tau.length → tau'[i]? = some v →
        tau'.drop i = v :: tau'.drop (i + 1) := by
      intro tau' v hl hv
      obtain ⟨hi', e⟩ := List.getElem?_eq_some_iff.1 hv
      rw [List.drop_eq_getElem_cons hi', e]
    cases hm : mask[i] with
    | false =>
      rw [hdm, hm] at h3
      obtain ⟨tau', a1, a2, a3, a4, a5⟩ := forceLoop_spec mask u k (i + 1) j (tau.set i 0) (by omega)
        (by simpa using h2) (by simpa using h3)
      rw [List.length_set] at a2
      have hti : tau'[i]? = some 0 := by
        rw [a3 i (by omega)]
        simp [h2, hi]
      refine ⟨tau', a1, a2, fun p hp => ?_, fun p hp hmp => ?_, ?_⟩
      · rw [a3 p (by omega), List.getElem?_set_ne (by omega)]
      · rcases Nat.eq_or_lt_of_le hp with rfl | hlt
        · exact hti
        · exact a4 p hlt hmp
      · rw [hdm, hm, fin tau' 0 a2 hti]
        simpa using a5
    | true =>
      rw [hdm, hm] at h3
      simp only [List.count_cons_self] at h3
      have hj : j < u.length := by omega
      rw [List.getElem?_eq_getElem hj]
      obtain ⟨tau', a1, a2, a3, a4, a5⟩ := forceLoop_spec mask u k (i + 1) (j + 1) (tau.set i u[j]) (by omega)
        (by simpa using h2) (by omega)
      rw [List.length_set] at a2
      have hti : tau'[i]? = some u[j] := by
        rw [a3 i (by omega)]
        simp [h2, hi]
      refine ⟨tau', a1, a2, fun p hp => ?_, fun p hp hmp => ?_, ?_⟩
      · rw [a3 p (by omega), List.getElem?_set_ne (by omega)]
      · rcases Nat.eq_or_lt_of_le hp with rfl | hlt
        · rw [hg, hm] at hmp
          cases hmp
        · exact a4 p hlt hmp
      · rw [hdm, hm, fin tau' _ a2 hti, List.drop_eq_getElem_cons hj]
        simp only [List.zip_cons_cons, List.filter_cons_of_pos, List.map_cons]
        rw [a5]

theorem forceLoop_actuates (mask : List Bool) (u tau : List K) (h : tau.length = mask.length)
    (hu : u.length = mask.count true) :
    ∃ tau', forceLoop mask u tau.length 0 0 tau = some (u.length, tau') ∧ Actuates mask u tau' := by
  obtain ⟨tau', a1, a2, -, a4, a5⟩ := forceLoop_spec mask u mask.length 0 0 tau (by simp) h (by simp [hu])
  rw [h]
  exact ⟨tau', a1, by omega, fun i hi => a4 i (by omega) hi, by simpa using a5⟩

/-- What a row of the data set has to be: a state and a control, and the velocity and acceleration there. -/
def BodyRow (fd : List K → List K → List K → List K) (mask : List Bool) (nq nv : ℕ) (row : List K × List K) : Prop :=
  ∃ q qd u tau, row = (q ++ qd ++ u, qd ++ fd q qd tau) ∧ q.length = nq ∧ qd.length = nv ∧ Actuates mask u tau

theorem bodySample_spec (fd : List K → List K → List K → List K) (mask : List Bool) (b : BodyBuf K) (s : List K)
    (hs : s.length = b.q.length + b.qd.length + mask.count true) (ht : b.tau.length = mask.length) :
    ∃ b' row, bodySample fd mask b s = some (b', row) ∧ row.1 = s ∧ BodyRow fd mask b.q.length b.qd.length row ∧
      b'.q.length = b.q.length ∧ b'.qd.length = b.qd.length ∧ b'.tau.length = mask.length := by
  have h1 : (s.take b.q.length).length = b.q.length := by simp; omega
  have h2 : ((s.drop b.q.length).take b.qd.length).length = b.qd.length := by simp; omega
  have h3 : ((s.drop (b.q.length + b.qd.length)).take (mask.count true)).length = mask.count true := by
    simp; omega
  obtain ⟨tau', a1, a2⟩ := forceLoop_actuates mask _ b.tau ht h3
  refine ⟨⟨s.take b.q.length, (s.drop b.q.length).take b.qd.length, tau'⟩, (s, (s.drop b.q.length).take b.qd.length ++
    fd (s.take b.q.length) ((s.drop b.q.length).take b.qd.length) tau'), ?_, rfl, ⟨_, _, _, tau', ?_, h1, h2, a2⟩,
    h1, h2, a2.length⟩
  · simp only [bodySample, copyInto_all _ _ h1, copyInto_all _ _ h2, a1, h3, Option.bind_eq_bind, Option.bind_some,
      if_true]
  · congr 1
    have e : (s.drop (b.q.length + b.qd.length)).take (mask.count true) = s.drop (b.q.length + b.qd.length) :=
      List.take_of_length_le (by simp; omega)
    rw [e, List.append_assoc, ← List.drop_drop, List.take_append_drop, List.take_append_drop]

/-- **C129**, `learn_ca_dyn.generate_dataset`: when the joints of the model are those of the mask, there is one row
for each draw, whatever the buffers held before. Each row is a point of the box, split into positions, velocities
and control; its label are the velocities and the accelerations for exactly these positions, velocities and forces,
so no value of an earlier sample remains. -/
theorem C129_rigid_body (fd : List K → List K → List K → List K) (mask : List Bool) (buf : BodyBuf K)
    (qLo qdLo uLo qUp qdUp uUp : List K) (draws : List (List K)) (hd0 : draws ≠ [])
    (hq : buf.q.length = qLo.length) (hqd : buf.qd.length = qdLo.length) (ht : buf.tau.length = mask.length)
    (hu : uLo.length = mask.count true) (hq' : qUp.length = qLo.length) (hqd' : qdUp.length = qdLo.length)
    (hu' : uUp.length = uLo.length)
    (hle : ∀ (i : ℕ) (l h : K), (qLo ++ qdLo ++ uLo)[i]? = some l → (qUp ++ qdUp ++ uUp)[i]? = some h → l ≤ h)
    (hd : ∀ r ∈ draws, Draws (qLo ++ qdLo ++ uLo).length r) :
    ∃ rows, bodyDataset fd mask buf qLo qdLo uLo qUp qdUp uUp draws = some rows ∧ rows.length = draws.length ∧
      ∀ row ∈ rows, InBox (qLo ++ qdLo ++ uLo) (qUp ++ qdUp ++ uUp) row.1 ∧
        BodyRow fd mask qLo.length qdLo.length row := by
  obtain ⟨ss, h1, h2, h3⟩ := C96_box (qLo ++ qdLo ++ uLo) (qUp ++ qdUp ++ uUp) (by simp; omega) hle draws hd
  have key : ∀ (ss : List (List K)) (b : BodyBuf K), b.q.length = qLo.length → b.qd.length = qdLo.length →
      b.tau.length = mask.length → (∀ s ∈ ss, InBox (qLo ++ qdLo ++ uLo) (qUp ++ qdUp ++ uUp) s) →
      ∃ rows, bodyLoop fd mask b ss = some rows ∧ rows.length = ss.length ∧
        ∀ row ∈ rows, InBox (qLo ++ qdLo ++ uLo) (qUp ++ qdUp ++ uUp) row.1 ∧
          BodyRow fd mask qLo.length qdLo.length row := by
    intro ss
    induction ss with
    | nil => intro b _ _ _ _; exact ⟨[], rfl, rfl, by simp⟩
    | cons s ss ih =>
      intro b hb1 hb2 hb3 hs
      have hs0 := hs s List.mem_cons_self
      have hl := hs0.1
      simp only [List.length_append] at hl
      obtain ⟨b', row, e, e1, e2, e3, e4, e5⟩ := bodySample_spec fd mask b s (by omega) hb3
      obtain ⟨rows, f1, f2, f3⟩ := ih b' (by omega) (by omega) e5 fun s h => hs s (List.mem_cons_of_mem _ h)
      refine ⟨row :: rows, by simp [bodyLoop, e, f1], by simp [f2], ?_⟩
      intro r hr
      rcases List.mem_cons.1 hr with rfl | hr
      · exact ⟨e1 ▸ hs0, hb1 ▸ hb2 ▸ e2⟩
      · exact f3 r hr
  obtain ⟨rows, f1, f2, f3⟩ := key ss buf hq hqd ht h3
  refine ⟨rows, ?_, by omega, f3⟩
  have hne : rows ≠ [] := by
    rintro rfl
    simp only [List.length_nil] at f2
    have := List.length_pos_of_ne_nil hd0
    omega
  simp only [bodyDataset, h1, f1, hne, Option.bind_eq_bind, Option.bind_some, if_false]

/-- **C129**: a mask with a motor beyond the joints of the model (its list of joints contains fixed ones) makes
the call raise, and so does a mask that is too short. -/
theorem C129_mask_raises (fd : List K → List K → List K → List K) (mask : List Bool) (b : BodyBuf K) (s : List K)
    (h : mask.length < b.tau.length ∨ (mask.take b.tau.length).count true < mask.count true) :
    bodySample fd mask b s = none := by
  have hf : ∀ (u : List K) (k i j : ℕ) (tau : List K),
      (mask.length < i + k ∧ i ≤ mask.length → forceLoop mask u k i j tau = none) ∧
      ∀ r, forceLoop mask u k i j tau = some r → r.1 = j + ((mask.drop i).take k).count true := by
    intro u k
    induction k with
    | zero =>
      intro i j tau
      refine ⟨fun ⟨a, b⟩ => absurd a (by omega), fun r hr => ?_⟩
      simp only [forceLoop, Option.some.injEq] at hr
      simp [← hr]
    | succ k ih =>
      intro i j tau
      unfold forceLoop
      cases hm : mask[i]? with
      | none => simp
      | some v =>
        obtain ⟨hi, hv⟩ := List.getElem?_eq_some_iff.1 hm
        rw [List.drop_eq_getElem_cons hi, hv]
        cases v with
        | false =>
          simp only
          obtain ⟨i1, i2⟩ := ih (i + 1) j (tau.set i 0)
          refine ⟨fun ⟨a, b⟩ => i1 ⟨by omega, by omega⟩, fun r hr => ?_⟩
          rw [i2 r hr]
          simp
        | true =>
          simp only
          cases hu : u[j]? with
          | none => simp
          | some w =>
            obtain ⟨i1, i2⟩ := ih (i + 1) (j + 1) (tau.set i w)
            refine ⟨fun ⟨a, b⟩ => i1 ⟨by omega, by omega⟩, fun r hr => ?_⟩
            rw [i2 r hr]
            simp
            omega
  unfold bodySample
  simp only [Option.bind_eq_bind, Option.bind_eq_none_iff]
  intro q _ qd _ r hr
  obtain ⟨f1, f2⟩ := hf ((s.drop (b.q.length + b.qd.length)).take (mask.count true)) b.tau.length 0 0 b.tau
  rcases h with h | h
  · rw [f1 ⟨by omega, by omega⟩] at hr
    cases hr
  · have := f2 r hr
    simp only [List.drop_zero, Nat.zero_add] at this
    rw [if_neg (by omega)]

/-- **C129**: the labels have the size that `get_models` gives the network `f` exactly if the model has as many
positions as velocities (not so for a floating base, whose orientation is a quaternion). -/
theorem C129_label_size (fd : List K → List K → List K → List K) (mask : List Bool) (nq nv : ℕ)
    (hfd : ∀ q qd tau, (fd q qd tau).length = nv) (row : List K × List K) (h : BodyRow fd mask nq nv row) :
    row.2.length = (bodyModelSizes nq nv (mask.count true)).1 ↔ nq = nv := by
  obtain ⟨q, qd, u, tau, rfl, h1, h2, -⟩ := h
  simp only [List.length_append, hfd, h2, bodyModelSizes]
  omega

/-! ### The pole -/

/-- The position of the ball is within reach of the rod. -/
def WithinRod (P : PoleDyn) (x : Fin 7 → ℝ) : Prop := x 0 ^ 2 + x 1 ^ 2 < P.length ^ 2

theorem dynNan_some {P : PoleDyn} {x k : Fin 7 → ℝ} {u : Fin 3 → ℝ} :
    P.dynNan x u = some k ↔ WithinRod P x ∧ P.dyn x u = some k := by
  unfold PoleDyn.dynNan WithinRod
  split_ifs with h
  · exact ⟨fun e => ⟨by linarith, e⟩, fun e => e.2⟩
  · constructor
    · intro e
      cases e
    · rintro ⟨e, -⟩
      exact absurd (by linarith) h

/-- The dynamics as a total function. -/
noncomputable def poleFlow (P : PoleDyn) (x : Fin 7 → ℝ) (u : Fin 3 → ℝ) : Fin 7 → ℝ := (P.dyn x u).getD 0

theorem pole_dyn_isSome {P : PoleDyn} (hm : 0 < P.mSphere) (he : 0 < P.mEe) (x : Fin 7 → ℝ) (u : Fin 3 → ℝ) :
    P.dyn x u = some (poleFlow P x u) := by
  unfold poleFlow PoleDyn.dyn
  rw [if_neg (pole_det P hm he x)]
  rfl

/-- The four states at which Runge-Kutta evaluates the dynamics. -/
noncomputable def rk4Stages (f : (Fin 7 → ℝ) → (Fin 3 → ℝ) → Fin 7 → ℝ) (dt : ℝ) (u : Fin 3 → ℝ) (x : Fin 7 → ℝ) :
    List (Fin 7 → ℝ) :=
  let k1 := f x u
  let k2 := f (x + (dt / 2) • k1) u
  let k3 := f (x + (dt / 2) • k2) u
  [x, x + (dt / 2) • k1, x + (dt / 2) • k2, x + dt • k3]

theorem pole_label {P : PoleDyn} (hm : 0 < P.mSphere) (he : 0 < P.mEe) (dt : ℝ) (x y : Fin 7 → ℝ) (u : Fin 3 → ℝ) :
    P.label dt x u = some y ↔ (∀ s ∈ rk4Stages (poleFlow P) dt u x, WithinRod P s) ∧
      y = rk4Step (poleFlow P) dt u x := by
  have hd : ∀ x k, P.dynNan x u = some k ↔ WithinRod P x ∧ k = poleFlow P x u := fun x k => by
    rw [dynNan_some, pole_dyn_isSome hm he, Option.some.injEq, eq_comm (a := k)]
  unfold PoleDyn.label
  simp only [Option.bind_eq_bind, Option.bind_eq_some_iff, hd, Option.some.injEq, rk4Stages, List.mem_cons,
    List.not_mem_nil, or_false, forall_eq_or_imp, forall_eq, rk4Step]
  constructor
  · rintro ⟨k1, ⟨a1, rfl⟩, k2, ⟨a2, rfl⟩, k3, ⟨a3, rfl⟩, k4, ⟨a4, rfl⟩, rfl⟩
    exact ⟨⟨a1, a2, a3, a4⟩, rfl⟩
  · rintro ⟨⟨a1, a2, a3, a4⟩, rfl⟩
    exact ⟨_, ⟨a1, rfl⟩, _, ⟨a2, rfl⟩, _, ⟨a3, rfl⟩, _, ⟨a4, rfl⟩, rfl⟩

theorem boxSample_mem {n : ℕ} {lo up r : Fin n → ℝ} (hle : ∀ i, lo i ≤ up i) (hr : ∀ i, 0 ≤ r i ∧ r i < 1) (i : Fin n) :
    lo i ≤ boxSample lo up r i ∧ boxSample lo up r i ≤ up i := by
  obtain ⟨a, b⟩ := hr i
  have := hle i
  unfold boxSample
  constructor <;> nlinarith

/-- **C129**, `learn_relu_dynamics.generate_dataset` of the pole: every row is a state with the rod less than 45
degrees from the vertical and velocities in the box, a force within the bounds, and the Runge-Kutta step of the
dynamics from that state under that constant force, all of whose stages are within reach of the rod. -/
theorem C129_pole (P : PoleDyn) (hm : 0 < P.mSphere) (he : 0 < P.mEe) (hl : 0 < P.length) (hg : 0 ≤ P.gravity)
    (dt : ℝ) (xDraws : List (Fin 7 → ℝ)) (uDraws : List (Fin 3 → ℝ)) (hx : ∀ r ∈ xDraws, ∀ i, 0 ≤ r i ∧ r i < 1)
    (hu : ∀ r ∈ uDraws, ∀ i, 0 ≤ r i ∧ r i < 1) (x y : Fin 7 → ℝ) (u : Fin 3 → ℝ)
    (h : ((x, u), y) ∈ P.dataset dt xDraws uDraws) :
    √(x 0 ^ 2 + x 1 ^ 2) < P.z x ∧ |x 2| ≤ 2 ∧ |x 3| ≤ 2 ∧ |x 4| ≤ 1 ∧ |x 5| ≤ 2 ∧ |x 6| ≤ 2 ∧
      |u 0| ≤ (P.mSphere + P.mEe) * P.gravity ∧ |u 1| ≤ (P.mSphere + P.mEe) * P.gravity ∧
      |u 2 - (P.mSphere + P.mEe) * P.gravity| ≤ (P.mSphere + P.mEe) * P.gravity / 2 ∧
      y = rk4Step (poleFlow P) dt u x ∧ ∀ s ∈ rk4Stages (poleFlow P) dt u x, WithinRod P s := by
  unfold PoleDyn.dataset at h
  simp only [List.mem_filterMap, Option.map_eq_some_iff] at h
  obtain ⟨p, hp, y', hy, e⟩ := h
  cases e
  obtain ⟨h1, h2⟩ := List.of_mem_zip hp
  rw [List.mem_filter, decide_eq_true_eq] at h1
  obtain ⟨h1, hn⟩ := h1
  obtain ⟨r, hr, rfl⟩ := List.mem_map.1 h1
  obtain ⟨r', hr', rfl⟩ := List.mem_map.1 h2
  obtain ⟨hs, rfl⟩ := (pole_label hm he dt _ _ _).1 hy
  have hle : ∀ i, (-P.stateUp) i ≤ P.stateUp i := by
    intro i
    fin_cases i <;> simp [PoleDyn.stateUp] <;> linarith
  have hw : 0 ≤ (P.mSphere + P.mEe) * P.gravity := by positivity
  have hle' : ∀ i, P.forceLo i ≤ P.forceUp i := by
    intro i
    fin_cases i <;> simp [PoleDyn.forceLo, PoleDyn.forceUp] <;> nlinarith
  have bx := boxSample_mem hle (hx r hr)
  have bu := boxSample_mem hle' (hu r' hr')
  generalize boxSample (-P.stateUp) P.stateUp r = x at *
  generalize boxSample P.forceLo P.forceUp r' = u at *
  refine ⟨?_, ?_, ?_, ?_, ?_, ?_, ?_, ?_, ?_, rfl, hs⟩
  · unfold PoleDyn.z
    refine Real.sqrt_lt_sqrt (by positivity) ?_
    rw [Real.sqrt_lt' (by positivity)] at hn
    nlinarith
  · exact abs_le.2 (by simpa [PoleDyn.stateUp] using bx 2)
  · exact abs_le.2 (by simpa [PoleDyn.stateUp] using bx 3)
  · exact abs_le.2 (by simpa [PoleDyn.stateUp] using bx 4)
  · exact abs_le.2 (by simpa [PoleDyn.stateUp] using bx 5)
  · exact abs_le.2 (by simpa [PoleDyn.stateUp] using bx 6)
  · exact abs_le.2 (by simpa [PoleDyn.forceLo, PoleDyn.forceUp] using bu 0)
  · exact abs_le.2 (by simpa [PoleDyn.forceLo, PoleDyn.forceUp] using bu 1)
  · have := bu 2
    simp only [PoleDyn.forceLo, PoleDyn.forceUp, Pi.smul_apply, smul_eq_mul, Matrix.cons_val] at this
    rw [abs_le]
    constructor <;> linarith [this.1, this.2]

/-- **C129**: a state that was drawn with a force is left out only for one of two reasons. -/
theorem C129_pole_complete (P : PoleDyn) (hm : 0 < P.mSphere) (he : 0 < P.mEe) (dt : ℝ)
    (r : Fin 7 → ℝ) (r' : Fin 3 → ℝ) (hn : √(boxSample (-P.stateUp) P.stateUp r 0 ^ 2 +
      boxSample (-P.stateUp) P.stateUp r 1 ^ 2) < 0.7 * P.length)
    (hs : ∀ s ∈ rk4Stages (poleFlow P) dt (boxSample P.forceLo P.forceUp r') (boxSample (-P.stateUp) P.stateUp r),
      WithinRod P s) :
    P.dataset dt [r] [r'] = [((boxSample (-P.stateUp) P.stateUp r, boxSample P.forceLo P.forceUp r'),
      rk4Step (poleFlow P) dt (boxSample P.forceLo P.forceUp r') (boxSample (-P.stateUp) P.stateUp r))] := by
  have := (pole_label hm he dt _ _ _).2 ⟨hs, rfl⟩
  simp [PoleDyn.dataset, hn, this]

/-! ### Concrete cases -/

/-- Two joints, the second with a motor, accelerations equal to the forces: the second sample does not keep the
force of the first, and the old contents of the buffers are gone. -/
example : bodyDataset (fun _ _ tau => tau) [false, true] (⟨[7, 7], [7, 7], [7, 7]⟩ : BodyBuf ℚ)
    [0, 0] [0, 0] [-1] [2, 2] [4, 4] [1] [[1 / 2, 0, 1 / 4, 0, 3 / 4], [0, 0, 0, 0, 1 / 2]] =
    some [([1, 0, 1, 0, 1 / 2], [1, 0, 0, 1 / 2]), ([0, 0, 0, 0, 0], [0, 0, 0, 0])] := by decide +kernel

/-- A fixed joint in front of the motor. -/
example : bodyDataset (fun _ _ tau => tau) [false, true] (⟨[7], [7], [7]⟩ : BodyBuf ℚ)
    [0] [0] [-1] [2] [4] [1] [[1 / 2, 1 / 4, 3 / 4]] = none := by decide +kernel

/-- The hypotheses of `C129_rigid_body` are met. -/
example : Draws 5 [1 / 2, 0, 1 / 4, 0, (3 / 4 : ℚ)] := by
  refine ⟨rfl, fun v hv => ?_⟩
  simp only [List.mem_cons, List.not_mem_nil, or_false] at hv
  rcases hv with rfl | rfl | rfl | rfl | rfl <;> norm_num

/-- A row of the pole's data set: the upright pole at rest under the force that carries it. (For `dt = 0` every
state is its own label; here the state is an equilibrium, so the label is the state for every `dt`.) -/
example (dt : ℝ) : ((0, simPole.uEq), 0) ∈ simPole.dataset dt [fun _ => 1 / 2] [fun _ => 1 / 2] := by
  have hx : boxSample (-simPole.stateUp) simPole.stateUp (fun _ => 1 / 2) = 0 := by
    funext i
    simp only [boxSample, Pi.neg_apply, Pi.zero_apply]
    ring
  have hu : boxSample simPole.forceLo simPole.forceUp (fun _ => 1 / 2) = simPole.uEq := by
    funext i
    fin_cases i <;> simp [boxSample, PoleDyn.forceLo, PoleDyn.forceUp, PoleDyn.uEq] <;> ring
  have hm : 0 < simPole.mSphere := by norm_num [simPole]
  have he : 0 < simPole.mEe := by norm_num [simPole]
  have hl : 0 < simPole.length := by norm_num [simPole]
  have hf : poleFlow simPole 0 simPole.uEq = 0 := by
    rw [poleFlow, (C127_linearisation simPole hm he hl).1]
    rfl
  have hst : ∀ s ∈ rk4Stages (poleFlow simPole) dt simPole.uEq 0, WithinRod simPole s := by
    intro s hs
    simp only [rk4Stages, hf, smul_zero, add_zero, List.mem_cons, List.not_mem_nil, or_false, or_self] at hs
    subst hs
    simp only [WithinRod, Pi.zero_apply]
    nlinarith
  have := C129_pole_complete simPole hm he dt (fun _ => 1 / 2) (fun _ => 1 / 2) (by
    rw [hx]
    simp only [Pi.zero_apply]
    norm_num [simPole]) (by rw [hx, hu]; exact hst)
  rw [this, hx, hu]
  simp [rk4Step, hf]

end NNL.Props
