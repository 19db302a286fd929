import Verif.Model.Slip
import Verif.Spec.Slip
import Mathlib.Analysis.Calculus.MeanValue
import Mathlib.Analysis.SpecialFunctions.Trigonometric.Deriv

/-!
# C88, C89: the motions of the spring loaded inverted pendulum
-/

namespace NNL.Props

open Real NNL.Model NNL.Spec

/-- Every stance phase found by the integrator is an exact motion up to a lift-off. -/
def ExactStance (P : Slip) (ode : Slip.StanceOde) : Prop :=
  ∀ x r, ode x = some r → Flow P.stance x r.2 r.1 ∧ r.1 0 = P.l0

theorem flow_const {n : ℕ} {f : (Fin n → ℝ) → Fin n → ℝ} {x0 x1 : Fin n → ℝ} {T : ℝ} (h : Flow f x0 T x1)
    (E : (Fin n → ℝ) → ℝ)
    (hE : ∀ (X : ℝ → Fin n → ℝ) (S : Set ℝ) (t : ℝ), (∀ i, HasDerivWithinAt (fun s => X s i) (f (X t) i) S t) →
      HasDerivWithinAt (fun s => E (X s)) 0 S t) : E x1 = E x0 := by
  obtain ⟨hT, X, h0, h1, hX⟩ := h
  have hd : ∀ t ∈ Set.Icc 0 T, HasDerivWithinAt (fun s => E (X s)) 0 (Set.Icc 0 T) t := fun t ht => hE X _ t (hX t ht)
  have := constant_of_has_deriv_right_zero (f := fun s => E (X s)) (a := 0) (b := T)
    (fun t ht => (hd t ht).continuousWithinAt)
    (fun t ht => ((hd t ⟨ht.1, ht.2.le⟩).mono_of_mem_nhdsWithin (Icc_mem_nhdsGE_of_mem ht)))
  have e := this T ⟨hT, le_rfl⟩
  simpa [h0, h1] using e

/-- C88. The energy is constant in flight. -/
theorem C88_flight_energy (P : Slip) (s s' : Fin 4 → ℝ) (T : ℝ) (h : Flow P.flight s T s') :
    P.flightEnergy s' = P.flightEnergy s := by
  refine flow_const h _ fun X S t hX => ?_
  have h1 := hX 1
  have h2 := hX 2
  have h3 := hX 3
  simp [Slip.flight] at h1 h2 h3
  refine ((((h2.pow 2).add (h3.pow 2)).const_mul (0.5 * P.mass)).add (h1.const_mul (P.mass * P.g))).congr_deriv ?_
  simp
  ring

/-- C88. The energy is constant in the stance phase. -/
theorem C88_stance_energy (P : Slip) (hm : P.mass ≠ 0) (s s' : Fin 5 → ℝ) (T : ℝ) (h : Flow P.stance s T s') :
    P.stanceEnergy s' = P.stanceEnergy s := by
  refine flow_const h _ fun X S t hX => ?_
  have h0 := hX 0
  have h1 := hX 1
  have h2 := hX 2
  have h3 := hX 3
  simp [Slip.stance] at h0 h1 h2 h3
  refine (((((h0.mul h3).pow 2).add (h2.pow 2)).const_mul (0.5 * P.mass)).add
    (((h0.const_sub P.l0).pow 2).const_mul (0.5 * P.k)) |>.add
    (((h0.const_mul P.mass).mul h1.cos).mul_const P.g)).congr_deriv ?_
  by_cases hr : X t 0 = 0
  · simp [hr]
    field_simp
    ring
  · simp
    field_simp
    ring

/-- C88. At touchdown, with the foot on the ground, nothing jumps: the leg has its rest length, the energy is the same, and
position and velocity are those of the flight. -/
theorem C88_touchdown (P : Slip) (hl : P.l0 ≠ 0) (s : Fin 4 → ℝ) (θ : ℝ) (h : P.tdGuard s θ = 0) :
    P.loGuard (P.touchdown s θ) = 0 ∧ P.touchdown s θ 1 = θ ∧ P.stanceEnergy (P.touchdown s θ) = P.flightEnergy s ∧
      legMass (P.touchdown s θ) = ![s 0, s 1] ∧ P.liftoff (P.touchdown s θ) = s := by
  have h1 : s 1 = P.l0 * cos θ := by simpa [Slip.tdGuard, sub_eq_zero] using h
  have e := sin_sq_add_cos_sq θ
  refine ⟨by simp [Slip.loGuard, Slip.touchdown], by simp [Slip.touchdown], ?_, ?_, ?_⟩
  · simp [Slip.stanceEnergy, Slip.flightEnergy, Slip.touchdown, h1]
    field_simp
    linear_combination 0.5 * P.mass * (s 2 ^ 2 + s 3 ^ 2) * e
  · simp [legMass, Slip.touchdown, h1]
  · ext i
    fin_cases i
    · simp [Slip.touchdown, Slip.liftoff]
    · simp [Slip.touchdown, Slip.liftoff, h1]
    · simp [Slip.touchdown, Slip.liftoff]
      field_simp
      linear_combination s 2 * e
    · simp [Slip.touchdown, Slip.liftoff]
      field_simp
      linear_combination s 3 * e

/-- C88. The same at lift-off. -/
theorem C88_liftoff (P : Slip) (hl : P.l0 ≠ 0) (s : Fin 5 → ℝ) (h : P.loGuard s = 0) :
    P.tdGuard (P.liftoff s) (s 1) = 0 ∧ P.flightEnergy (P.liftoff s) = P.stanceEnergy s ∧
      ![P.liftoff s 0, P.liftoff s 1] = legMass s ∧ P.touchdown (P.liftoff s) (s 1) = s := by
  have h0 : s 0 = P.l0 := by simpa [Slip.loGuard, sub_eq_zero] using h
  have e := sin_sq_add_cos_sq (s 1)
  refine ⟨by simp [Slip.tdGuard, Slip.liftoff], ?_, ?_, ?_⟩
  · simp [Slip.stanceEnergy, Slip.flightEnergy, Slip.liftoff, h0]
    linear_combination 0.5 * P.mass * (P.l0 ^ 2 * s 3 ^ 2 + s 2 ^ 2) * e
  · simp [legMass, Slip.liftoff, h0]
  · ext i
    fin_cases i
    · simp [Slip.touchdown, h0]
    · simp [Slip.touchdown]
    · simp [Slip.touchdown, Slip.liftoff, h0]
      linear_combination s 2 * e
    · simp [Slip.touchdown, Slip.liftoff, h0]
      field_simp
      linear_combination P.l0 * s 3 * e
    · simp [Slip.touchdown, Slip.liftoff]

/-- C88. The stance phase obeys Newton's law for a mass on a spring: the position of the mass has the velocity of
`liftoff_transition`, and this velocity changes by gravity and the spring. -/
theorem C88_newton (P : Slip) (X : ℝ → Fin 5 → ℝ) (t : ℝ) (hr : X t 0 ≠ 0)
    (hX : ∀ i, HasDerivAt (fun s => X s i) (P.stance (X t) i) t) :
    (∀ i : Fin 2, HasDerivAt (fun s => legMass (X s) i) (![P.liftoff (X t) 2, P.liftoff (X t) 3] i) t) ∧
      ∀ i : Fin 2, HasDerivAt (fun s => ![P.liftoff (X s) 2, P.liftoff (X s) 3] i)
        (springAcc P.mass P.l0 P.k P.g (X t) i) t := by
  have h0 := hX 0
  have h1 := hX 1
  have h2 := hX 2
  have h3 := hX 3
  have h4 := hX 4
  simp [Slip.stance] at h0 h1 h2 h3 h4
  have e := sin_sq_add_cos_sq (X t 1)
  constructor
  · intro i
    fin_cases i
    · exact (h4.sub (h0.mul h1.sin)).congr_deriv (by simp [Slip.liftoff]; ring)
    · exact (h0.mul h1.cos).congr_deriv (by simp [Slip.liftoff]; ring)
  · intro i
    fin_cases i
    · refine (((h0.neg.mul h1.cos).mul h3).sub (h2.mul h1.sin)).congr_deriv ?_
      simp [springAcc]
      field_simp
      ring
    · refine (((h0.neg.mul h1.sin).mul h3).add (h2.mul h1.cos)).congr_deriv ?_
      simp [springAcc]
      field_simp
      linear_combination -P.g * e

theorem flow_thrown (P : Slip) (s : Fin 4 → ℝ) {T : ℝ} (hT : 0 ≤ T) : Flow P.flight s T (thrown P.g s T) := by
  refine ⟨hT, thrown P.g s, ?_, rfl, fun t _ i => HasDerivAt.hasDerivWithinAt ?_⟩
  · ext i; fin_cases i <;> simp [thrown]
  · have hi := hasDerivAt_id t
    fin_cases i
    · exact ((hi.const_mul (s 2)).const_add (s 0)).congr_deriv (by simp [Slip.flight, thrown])
    · exact (((hi.const_mul (s 3)).const_add (s 1)).sub ((hi.pow 2).const_mul (P.g / 2))).congr_deriv (by
        simp [Slip.flight, thrown]; ring)
    · exact (hasDerivAt_const t (s 2)).congr_deriv (by simp [Slip.flight])
    · exact ((hi.const_mul P.g).const_sub (s 3)).congr_deriv (by simp [Slip.flight])

/-- C88. What `apex_map` returns is reached: a flight from the apex to the touchdown at the leg angle, a stance phase up to
lift-off, and a flight to the next apex, in the returned time; the energy at both apexes is the same. -/
theorem C88_apex_map (P : Slip) (ode : Slip.StanceOde) (ho : ExactStance P ode) (hg : 0 < P.g) (hm : P.mass ≠ 0)
    (hl : P.l0 ≠ 0) (x h v θ x' h' v' t : ℝ) (hr : P.apexMap ode x h v θ = some (x', h', v', t)) :
    (∃ T1 T2 T3 s1 s2, Flow P.flight ![x, h, v, 0] T1 s1 ∧ P.tdGuard s1 θ = 0 ∧ Flow P.stance (P.touchdown s1 θ) T2 s2 ∧
      P.loGuard s2 = 0 ∧ Flow P.flight (P.liftoff s2) T3 ![x', h', v', 0] ∧ t = T1 + T2 + T3) ∧
    P.mass * P.g * h' + 1 / 2 * P.mass * v' ^ 2 = P.mass * P.g * h + 1 / 2 * P.mass * v ^ 2 := by
  have hh : ¬ h - P.l0 * cos θ < 0 := by
    intro hc; simp [Slip.apexMap, hc] at hr
  have A : ∃ T1 T2 T3 s1 s2, Flow P.flight ![x, h, v, 0] T1 s1 ∧ P.tdGuard s1 θ = 0 ∧
      Flow P.stance (P.touchdown s1 θ) T2 s2 ∧
      P.loGuard s2 = 0 ∧ Flow P.flight (P.liftoff s2) T3 ![x', h', v', 0] ∧ t = T1 + T2 + T3 := by
    unfold Slip.apexMap at hr
    rw [if_neg hh] at hr
    split_ifs at hr with c1 c2
    set tTd := √(2 * (h - P.l0 * cos θ) / P.g) with htd
    have hsq : tTd ^ 2 = 2 * (h - P.l0 * cos θ) / P.g := Real.sq_sqrt (by
      have : 0 ≤ h - P.l0 * cos θ := not_lt.1 hh
      positivity)
    cases hs : ode (P.touchdown ![x + v * tTd, P.l0 * cos θ, v, -P.g * tTd] θ) with
    | none => simp only [hs] at hr; simp at hr
    | some sol =>
      simp only [hs] at hr
      simp at hr
      obtain ⟨hv, rfl, rfl, rfl, rfl⟩ := hr
      obtain ⟨hfl, hlo⟩ := ho _ _ hs
      have e1 : thrown P.g ![x, h, v, 0] tTd = ![x + v * tTd, P.l0 * cos θ, v, -P.g * tTd] := by
        ext i
        fin_cases i <;> simp [thrown]
        rw [hsq]
        field_simp
        ring
      refine ⟨tTd, sol.2, P.liftoff sol.1 3 / P.g, _, sol.1, flow_thrown P _ (Real.sqrt_nonneg _), ?_, ?_, ?_, ?_, rfl⟩
      · rw [e1]; simp [Slip.tdGuard]
      · rw [e1]; exact hfl
      · simp [Slip.loGuard, hlo]
      · have := flow_thrown P (P.liftoff sol.1) (T := P.liftoff sol.1 3 / P.g) (by positivity)
        convert this using 1
        ext i
        fin_cases i <;> simp [thrown]
        · field_simp; ring
        · field_simp; ring
  refine ⟨A, ?_⟩
  obtain ⟨T1, T2, T3, s1, s2, f1, g1, f2, g2, f3, -⟩ := A
  have E1 := C88_flight_energy P _ _ _ f1
  have E2 := (C88_touchdown P hl s1 θ g1).2.2.1
  have E3 := C88_stance_energy P hm _ _ _ f2
  have E4 := (C88_liftoff P hl s2 g2).2.1
  have E5 := C88_flight_energy P _ _ _ f3
  have : P.flightEnergy ![x', h', v', 0] = P.flightEnergy ![x, h, v, 0] := by
    rw [E5, E4, E3, E2, E1]
  simp [Slip.flightEnergy] at this
  linarith

/-- C88. When `apex_map` returns a state. -/
theorem C88_apex_map_accepts (P : Slip) (ode : Slip.StanceOde) (x h v θ : ℝ) :
    (P.apexMap ode x h v θ).isSome ↔ 0 ≤ (foot P.l0 θ ![x, h, v, 0]).2 ∧ ¬ (0 < v ∧ θ < 0) ∧ ¬ (v < 0 ∧ 0 < θ) ∧
      ∃ s T, ode (P.touchdown (thrown P.g ![x, h, v, 0] √(2 * (foot P.l0 θ ![x, h, v, 0]).2 / P.g)) θ) = some (s, T) ∧
        0 ≤ P.liftoff s 3 := by
  have e1 : P.touchdown (thrown P.g ![x, h, v, 0] √(2 * (foot P.l0 θ ![x, h, v, 0]).2 / P.g)) θ =
      P.touchdown ![x + v * √(2 * (h - P.l0 * cos θ) / P.g), P.l0 * cos θ, v, -P.g * √(2 * (h - P.l0 * cos θ) / P.g)] θ := by
    simp [Slip.touchdown, thrown, foot]
  rw [e1]
  unfold Slip.apexMap
  simp only [foot, Matrix.cons_val_one, Matrix.cons_val_zero]
  split_ifs with c0 c1 c2
  · simp [not_le.2 c0, -sub_nonneg]
  · simp [c1]
  · simp [c2]
  · cases hs : ode (P.touchdown
      ![x + v * √(2 * (h - P.l0 * cos θ) / P.g), P.l0 * cos θ, v, -P.g * √(2 * (h - P.l0 * cos θ) / P.g)] θ) with
    | none => simp [-neg_mul]
    | some sol =>
      obtain ⟨s, T⟩ := sol
      simp only [Option.bind_eq_bind, Option.bind_some]
      have c0' : 0 ≤ h - P.l0 * cos θ := not_lt.1 c0
      by_cases hv : P.liftoff s 3 < 0
      · rw [if_pos hv]
        simp [not_le.2 hv]
      · rw [if_neg hv]
        simp only [Option.isSome_some, true_iff]
        exact ⟨c0', c1, c2, s, T, rfl, not_lt.1 hv⟩

/-- A flight phase which ends at touchdown and a stance phase which ends at lift-off or with the mass on the ground. -/
def ExactSteps (P : Slip) (p : Slip.Seg 4 × Slip.Seg 5) : Prop :=
  Flow P.flight p.1.x0 (p.1.t1 - p.1.t0) p.1.x1 ∧ P.tdGuard p.1.x1 (p.2.x0 1) = 0 ∧
    Flow P.stance p.2.x0 (p.2.t1 - p.2.t0) p.2.x1 ∧ (p.2.x1 0 = P.l0 ∨ p.2.x1 1 = π / 2 ∨ p.2.x1 1 = -(π / 2))

/-- The next flight phase starts at the apex of the flight after lift-off. -/
def ApexAfter (P : Slip) (p q : Slip.Seg 4 × Slip.Seg 5) : Prop :=
  ∃ T, (thrown P.g (P.liftoff p.2.x1) T) 3 = 0 ∧ q.1.x0 = thrown P.g (P.liftoff p.2.x1) T ∧ q.1.t0 = p.2.t1 + T

theorem simLoop_spec (P : Slip) (odeF) (odeS) (hg : 0 < P.g) (hm : P.mass ≠ 0) (hl : P.l0 ≠ 0) (θs : List ℝ) (t : ℝ)
    (x : Fin 4 → ℝ) (he : ∀ p ∈ P.simLoop odeF odeS θs t x, ExactSteps P p) :
    (∀ p ∈ (P.simLoop odeF odeS θs t x).head?, p.1.x0 = x ∧ p.1.t0 = t) ∧
    (P.simLoop odeF odeS θs t x).IsChain (ApexAfter P) ∧
    (∀ p ∈ P.simLoop odeF odeS θs t x, p.2.t0 = p.1.t1 ∧ p.2.x0 = P.touchdown p.1.x1 (p.2.x0 1) ∧
      P.flightEnergy p.1.x0 = P.flightEnergy x ∧ P.flightEnergy p.1.x1 = P.flightEnergy x ∧
      P.stanceEnergy p.2.x0 = P.flightEnergy x ∧ P.stanceEnergy p.2.x1 = P.flightEnergy x) ∧
    (P.simLoop odeF odeS θs t x).map (fun p => p.2.x0 1) <+: θs := by
  induction θs generalizing t x with
  | nil => simp [Slip.simLoop]
  | cons θ θs ih =>
    unfold Slip.simLoop at he ⊢
    by_cases h0 : x 1 ≤ P.l0 * cos θ
    · simp [h0]
    rw [if_neg h0] at he ⊢
    dsimp only at he ⊢
    set a := odeF θ t x with ha
    set b := odeS a.1 (P.touchdown a.2 θ) with hb
    set seg : Slip.Seg 4 × Slip.Seg 5 := (⟨t, x, a.1, a.2⟩, ⟨a.1, P.touchdown a.2 θ, b.1, b.2⟩) with hseg
    have e1 : P.touchdown a.2 θ 1 = θ := by simp [Slip.touchdown]
    have one (hs : ExactSteps P seg) : (seg.2.t0 = seg.1.t1 ∧ seg.2.x0 = P.touchdown seg.1.x1 (seg.2.x0 1) ∧
        P.flightEnergy seg.1.x0 = P.flightEnergy x ∧ P.flightEnergy seg.1.x1 = P.flightEnergy x ∧
        P.stanceEnergy seg.2.x0 = P.flightEnergy x ∧ P.stanceEnergy seg.2.x1 = P.flightEnergy x) := by
      obtain ⟨f1, g1, f2, g2⟩ := hs
      have E1 := C88_flight_energy P _ _ _ f1
      have E3 := C88_stance_energy P hm _ _ _ f2
      simp only [hseg, e1] at g1 E1 E3 ⊢
      have E2 := (C88_touchdown P hl a.2 θ g1).2.2.1
      exact ⟨trivial, trivial, trivial, E1, E2.trans E1, E3.trans (E2.trans E1)⟩
    have single (hs : ExactSteps P seg) : (∀ p ∈ [seg].head?, p.1.x0 = x ∧ p.1.t0 = t) ∧
        [seg].IsChain (ApexAfter P) ∧
        (∀ p ∈ [seg], p.2.t0 = p.1.t1 ∧ p.2.x0 = P.touchdown p.1.x1 (p.2.x0 1) ∧
          P.flightEnergy p.1.x0 = P.flightEnergy x ∧ P.flightEnergy p.1.x1 = P.flightEnergy x ∧
          P.stanceEnergy p.2.x0 = P.flightEnergy x ∧ P.stanceEnergy p.2.x1 = P.flightEnergy x) ∧
        [seg].map (fun p => p.2.x0 1) <+: θ :: θs := by
      refine ⟨by simp [hseg], by simp, by simpa using one hs, ?_⟩
      simp [hseg, e1]
    by_cases h1 : b.2 1 + π / 2 < 1e-5
    · rw [if_pos h1] at he ⊢
      exact single (he _ (by simp))
    rw [if_neg h1] at he ⊢
    by_cases h2 : π / 2 - b.2 1 < 1e-5
    · rw [if_pos h2] at he ⊢
      exact single (he _ (by simp))
    rw [if_neg h2] at he ⊢
    have hs := he seg (by simp)
    set x' : Fin 4 → ℝ := ![P.liftoff b.2 0 + P.liftoff b.2 2 * (P.liftoff b.2 3 / P.g),
      P.liftoff b.2 1 + P.liftoff b.2 3 ^ 2 / (2 * P.g), P.liftoff b.2 2, 0] with hx'
    obtain ⟨i1, i2, i3, i4⟩ := ih (b.1 + P.liftoff b.2 3 / P.g) x' (fun p hp => he p (by simp [hp]))
    have hlo : b.2 0 = P.l0 := by
      rcases hs.2.2.2 with h | h | h
      · exact h
      · simp only [hseg] at h
        rw [h] at h2; norm_num at h2
      · simp only [hseg] at h
        rw [h] at h1; norm_num at h1
    have hE : P.flightEnergy x' = P.flightEnergy x := by
      have E4 := (C88_liftoff P hl b.2 (by simp [Slip.loGuard, hlo])).2.1
      have E5 : P.flightEnergy x' = P.flightEnergy (P.liftoff b.2) := by
        simp [Slip.flightEnergy, hx']
        field_simp
        ring
      rw [E5, E4]
      exact (one hs).2.2.2.2.2
    have hT : x' = thrown P.g (P.liftoff b.2) (P.liftoff b.2 3 / P.g) := by
      ext i
      fin_cases i <;> simp [thrown, hx']
      · field_simp; ring
      · field_simp; ring
    refine ⟨by simp [hseg], ?_, ?_, ?_⟩
    · rw [List.isChain_cons]
      refine ⟨fun q hq => ?_, i2⟩
      obtain ⟨q1, q2⟩ := i1 q hq
      refine ⟨P.liftoff b.2 3 / P.g, ?_, ?_, ?_⟩
      · simp only [hseg]; rw [← hT]; simp [hx']
      · rw [q1, hT]
      · rw [q2]
    · intro p hp
      rcases List.mem_cons.1 hp with rfl | hp
      · exact one hs
      · have := i3 p hp
        rw [hE] at this
        exact this
    · simp only [List.map_cons]
      simpa [hseg, e1] using i4

/-- C88. `simulate` chains the phases: it starts at `x0`; each stance phase starts with the touchdown transition, at a
prescribed leg angle, and each further flight phase at the apex after lift-off. If the phases are exact motions, the energy
at the ends of all phases is the energy of `x0`. -/
theorem C88_simulate (P : Slip) (odeF) (odeS) (hg : 0 < P.g) (hm : P.mass ≠ 0) (hl : P.l0 ≠ 0) (x0 : Fin 4 → ℝ)
    (θs : List ℝ) (L : List (Slip.Seg 4 × Slip.Seg 5)) (hr : P.simulate odeF odeS x0 θs = some L)
    (he : ∀ p ∈ L, ExactSteps P p) :
    (∃ p, L.head? = some p ∧ p.1.x0 = x0 ∧ p.1.t0 = 0) ∧ L.IsChain (ApexAfter P) ∧
    (∀ p ∈ L, p.2.t0 = p.1.t1 ∧ p.2.x0 = P.touchdown p.1.x1 (p.2.x0 1) ∧
      P.flightEnergy p.1.x0 = P.flightEnergy x0 ∧ P.flightEnergy p.1.x1 = P.flightEnergy x0 ∧
      P.stanceEnergy p.2.x0 = P.flightEnergy x0 ∧ P.stanceEnergy p.2.x1 = P.flightEnergy x0) ∧
    L.map (fun p => p.2.x0 1) <+: θs := by
  cases θs with
  | nil => simp [Slip.simulate] at hr
  | cons θ θs =>
    simp only [Slip.simulate, List.head?_cons, Option.bind_eq_bind, Option.bind_some] at hr
    split_ifs at hr with h0
    cases hr
    obtain ⟨h1, h2, h3, h4⟩ := simLoop_spec P odeF odeS hg hm hl (θ :: θs) 0 x0 he
    refine ⟨?_, h2, h3, h4⟩
    have : ∃ p, (P.simLoop odeF odeS (θ :: θs) 0 x0).head? = some p := by
      unfold Slip.simLoop
      rw [if_neg (not_le.2 h0)]
      dsimp only
      split_ifs <;> simp
    obtain ⟨p, hp⟩ := this
    exact ⟨p, hp, h1 p hp⟩

/-! ## C89 -/

theorem foot_thrown (g l θ : ℝ) (s : Fin 4 → ℝ) (t : ℝ) :
    (foot l θ (thrown g s t)).2 = (foot l θ s).2 + s 3 * t - g / 2 * t ^ 2 := by
  simp [foot, thrown]; ring

theorem comesDown_unique {g l θ : ℝ} {s : Fin 4 → ℝ} {h t t' : ℝ} (h1 : ComesDown g l θ s h t) (h2 : ComesDown g l θ s h t') :
    t = t' := by
  rcases lt_trichotomy t t' with c | c | c
  · have := h1.2.2 t' c; linarith [h2.2.1]
  · exact c
  · have := h2.2.2 t c; linarith [h1.2.1]

theorem landing (P : Slip) (hg : 0 < P.g) (s : Fin 4 → ℝ) (h θ : ℝ) (hh : h ≤ (foot P.l0 θ s).2) :
    ComesDown P.g P.l0 θ s h ((√(s 3 ^ 2 + 2 * P.g * ((foot P.l0 θ s).2 - h)) + s 3) / P.g) ∧
      ∀ t', 0 < t' → t' < (√(s 3 ^ 2 + 2 * P.g * ((foot P.l0 θ s).2 - h)) + s 3) / P.g →
        h < (foot P.l0 θ (thrown P.g s t')).2 := by
  set z := (foot P.l0 θ s).2
  set d := s 3 ^ 2 + 2 * P.g * (z - h) with hd
  have hd0 : s 3 ^ 2 ≤ d := by
    have : 0 ≤ 2 * P.g * (z - h) := by have := sub_nonneg.2 hh; positivity
    linarith
  have hq : √d ^ 2 = d := Real.sq_sqrt ((sq_nonneg _).trans hd0)
  have habs : |s 3| ≤ √d := Real.abs_le_sqrt hd0
  have hq0 := Real.sqrt_nonneg d
  have n1 : -√d ≤ s 3 := by linarith [neg_abs_le (s 3)]
  have n2 : s 3 ≤ √d := by linarith [le_abs_self (s 3)]
  set q := √d
  have key (t' : ℝ) : z + s 3 * t' - P.g / 2 * t' ^ 2 - h =
      P.g / 2 * (((q + s 3) / P.g - t') * (t' + (q - s 3) / P.g)) := by
    have : z - h = (q ^ 2 - s 3 ^ 2) / (2 * P.g) := by
      rw [hq, hd]; field_simp; ring
    have e : z = h + (q ^ 2 - s 3 ^ 2) / (2 * P.g) := by linarith
    rw [e]
    field_simp
    ring
  have hb : 0 ≤ (q - s 3) / P.g := div_nonneg (by linarith) hg.le
  refine ⟨⟨div_nonneg (by linarith) hg.le, ?_, fun t' ht' => ?_⟩, fun t' h0 h1 => ?_⟩
  · rw [foot_thrown]
    have := key ((q + s 3) / P.g)
    rw [sub_self, zero_mul, mul_zero] at this
    linarith
  · rw [foot_thrown]
    have h0 : 0 < t' := lt_of_le_of_lt (div_nonneg (by linarith) hg.le) ht'
    have : P.g / 2 * (((q + s 3) / P.g - t') * (t' + (q - s 3) / P.g)) < 0 :=
      mul_neg_of_pos_of_neg (by positivity) (mul_neg_of_neg_of_pos (by linarith) (by linarith))
    have := key t'
    linarith
  · rw [foot_thrown]
    have : 0 < P.g / 2 * (((q + s 3) / P.g - t') * (t' + (q - s 3) / P.g)) :=
      mul_pos (by positivity) (mul_pos (by linarith) (by linarith))
    have := key t'
    linarith

/-- C89. The time returned by `time_to_touchdown` is the time at which the foot comes down to the height of the stone, on the
stone; until then the foot is above this height. -/
theorem C89_sound (P : Slip) (hg : 0 < P.g) (s : Fin 4 → ℝ) (S : Stone) (θ t : ℝ) (hr : P.timeToTouchdown s S θ = some t) :
    ComesDown P.g P.l0 θ s S.height t ∧ S.left ≤ (foot P.l0 θ (thrown P.g s t)).1 ∧
      (foot P.l0 θ (thrown P.g s t)).1 ≤ S.right ∧
      ∀ t', 0 < t' → t' < t → S.height < (foot P.l0 θ (thrown P.g s t')).2 := by
  unfold Slip.timeToTouchdown at hr
  dsimp only at hr
  split_ifs at hr with h1 h2
  cases hr
  obtain ⟨h3, h4⟩ := landing P hg s S.height θ (not_lt.1 h1)
  have e : (foot P.l0 θ (thrown P.g s ((√(s 3 ^ 2 + 2 * P.g * (s 1 - P.l0 * cos θ - S.height)) + s 3) / P.g))).1 =
      s 0 + P.l0 * sin θ + s 2 * ((√(s 3 ^ 2 + 2 * P.g * (s 1 - P.l0 * cos θ - S.height)) + s 3) / P.g) := by
    simp [foot, thrown]; ring
  rw [e]
  exact ⟨h3, h2.1, h2.2, h4⟩

/-- C89, partial: a time is returned exactly if the foot comes down on the stone at this time, provided the foot is not both
below the height of the stone and ascending (false then: `C89_ascending`). -/
theorem C89_iff_partial (P : Slip) (hg : 0 < P.g) (s : Fin 4 → ℝ) (S : Stone) (θ t : ℝ)
    (h : S.height ≤ (foot P.l0 θ s).2 ∨ s 3 ≤ 0) :
    P.timeToTouchdown s S θ = some t ↔ ComesDown P.g P.l0 θ s S.height t ∧
      S.left ≤ (foot P.l0 θ (thrown P.g s t)).1 ∧ (foot P.l0 θ (thrown P.g s t)).1 ≤ S.right := by
  constructor
  · intro hr
    obtain ⟨h1, h2, h3, -⟩ := C89_sound P hg s S θ t hr
    exact ⟨h1, h2, h3⟩
  · rintro ⟨h1, h2, h3⟩
    by_cases hh : S.height ≤ (foot P.l0 θ s).2
    · have ht := comesDown_unique h1 (landing P hg s S.height θ hh).1
      have e : (foot P.l0 θ (thrown P.g s t)).1 = s 0 + P.l0 * sin θ + s 2 * t := by
        simp [foot, thrown]; ring
      rw [e] at h2 h3
      unfold Slip.timeToTouchdown
      dsimp only
      have hh' : ¬ S.height > s 1 - P.l0 * cos θ := not_lt.2 hh
      rw [if_neg hh']
      have e2 : (√(s 3 ^ 2 + 2 * P.g * (s 1 - P.l0 * cos θ - S.height)) + s 3) / P.g = t := ht.symm
      rw [e2, if_pos ⟨h2, h3⟩]
    · exfalso
      have hv := h.resolve_left hh
      have := h1.2.1
      rw [foot_thrown] at this
      have h0 := h1.1
      have : s 3 * t ≤ 0 := mul_nonpos_of_nonpos_of_nonneg hv h0
      have : 0 ≤ P.g / 2 * t ^ 2 := by positivity
      linarith [not_le.1 hh]

/-- C89. `can_touch_stepping_stone` at an apex (no vertical velocity) tells whether the foot will come down on the stone. -/
theorem C89_apex (P : Slip) (hg : 0 < P.g) (s : Fin 4 → ℝ) (S : Stone) (θ : ℝ) (hv : s 3 = 0) :
    P.canTouch s S θ = true ↔ ∃ t, ComesDown P.g P.l0 θ s S.height t ∧
      S.left ≤ (foot P.l0 θ (thrown P.g s t)).1 ∧ (foot P.l0 θ (thrown P.g s t)).1 ≤ S.right := by
  rw [Slip.canTouch, Option.isSome_iff_exists]
  exact exists_congr fun t => C89_iff_partial P hg s S θ t (Or.inr hv.le)

/-- C89 (the code disagrees). A foot below the height of the stone which is thrown upwards comes down on the stone, but
`time_to_touchdown` returns `None`. -/
theorem C89_ascending (P : Slip) (hg : 0 < P.g) (S : Stone) (hS : S.left < S.right) (θ : ℝ) :
    ∃ s : Fin 4 → ℝ, P.timeToTouchdown s S θ = none ∧ ∃ t, ComesDown P.g P.l0 θ s S.height t ∧
      S.left ≤ (foot P.l0 θ (thrown P.g s t)).1 ∧ (foot P.l0 θ (thrown P.g s t)).1 ≤ S.right := by
  obtain ⟨c, hc1, hc2⟩ := EReal.exists_between_coe_real hS
  refine ⟨![c - P.l0 * sin θ, S.height + P.l0 * cos θ - P.g / 2 * 3, 0, 2 * P.g], ?_, 3, ⟨by norm_num, ?_, fun t' ht' => ?_⟩,
    ?_⟩
  · unfold Slip.timeToTouchdown
    dsimp only
    rw [if_pos]
    simp
    linarith
  · simp [foot, thrown]; ring
  · simp [foot, thrown]
    nlinarith [mul_pos (sub_pos.2 ht') hg, mul_pos (mul_pos (sub_pos.2 ht') hg) (sub_pos.2 ht')]
  · simp [foot, thrown]
    exact ⟨hc1.le, hc2.le⟩

/-! ## Examples: a vertical hop -/

/-- A leg of rest length 4 with unit mass, stiffness and gravity. -/
def exSlip : Slip := ⟨1, 4, 1, 1⟩

open Classical in
/-- The exact stance phase of the hop from the height 4.5. -/
noncomputable def exStance : Slip.StanceOde := fun x =>
  if x = ![4, 0, -1, 0, 0] then some (![4, 0, 1, 0, 0], 3 * (π / 2)) else none

theorem cos_three : cos (3 * (π / 2)) = 0 := by
  rw [show 3 * (π / 2) = π / 2 + π by ring, cos_add_pi, cos_pi_div_two, neg_zero]

theorem sin_three : sin (3 * (π / 2)) = -1 := by
  rw [show 3 * (π / 2) = π / 2 + π by ring, sin_add_pi, sin_pi_div_two]

theorem exStance_exact : ExactStance exSlip exStance := by
  intro x r h
  unfold exStance at h
  split_ifs at h with hx
  cases h
  refine ⟨⟨by positivity, fun t => ![3 + cos t - sin t, 0, -sin t - cos t, 0, 0], ?_, ?_, fun t _ i =>
    HasDerivAt.hasDerivWithinAt ?_⟩, by simp [exSlip]⟩
  · rw [hx]; ext i; fin_cases i <;> simp; norm_num
  · ext i; fin_cases i <;> simp [cos_three, sin_three]; norm_num
  · have hc := hasDerivAt_cos t
    have hs := hasDerivAt_sin t
    fin_cases i
    · exact ((hc.const_add 3).sub hs).congr_deriv (by simp [Slip.stance])
    · exact (hasDerivAt_const t (0 : ℝ)).congr_deriv (by simp [Slip.stance])
    · exact (hs.neg.sub hc).congr_deriv (by simp [Slip.stance, exSlip]; ring)
    · exact (hasDerivAt_const t (0 : ℝ)).congr_deriv (by simp [Slip.stance])
    · exact (hasDerivAt_const t (0 : ℝ)).congr_deriv (by simp [Slip.stance])

/-- The hop reaches its height again. -/
theorem exHop : exSlip.apexMap exStance 0 4.5 0 0 = some (0, 4.5, 0, 1 + 3 * (π / 2) + 1) := by
  have e : (2 * (4.5 - 4 * cos 0) / 1 : ℝ) = 1 := by norm_num
  have e2 : exSlip.touchdown ![0 + 0 * 1, exSlip.l0 * cos 0, 0, -exSlip.g * 1] 0 = ![4, 0, -1, 0, 0] := by
    ext i; fin_cases i <;> simp [Slip.touchdown, exSlip]
  have e3 : exSlip.liftoff ![4, 0, 1, 0, 0] = ![0, 4, 0, 1] := by
    ext i; fin_cases i <;> simp [Slip.liftoff, exSlip]
  unfold Slip.apexMap
  rw [if_neg (by simp [exSlip]; norm_num), if_neg (by simp), if_neg (by simp)]
  have e4 : √(2 * (4.5 - exSlip.l0 * cos 0) / exSlip.g) = 1 := by
    show √(2 * (4.5 - 4 * cos 0) / 1) = 1
    rw [e, Real.sqrt_one]
  simp only [e4, e2, exStance, if_true, Option.bind_eq_bind, Option.bind_some, e3]
  simp [exSlip]
  norm_num

example : exSlip.mass * exSlip.g * 4.5 + 1 / 2 * exSlip.mass * 0 ^ 2 =
    exSlip.mass * exSlip.g * 4.5 + 1 / 2 * exSlip.mass * 0 ^ 2 :=
  (C88_apex_map exSlip exStance exStance_exact (by norm_num [exSlip]) (by norm_num [exSlip]) (by norm_num [exSlip])
    0 4.5 0 0 0 4.5 0 _ exHop).2

/-- A simulation of one hop. -/
example : exSlip.simulate (fun _ t _ => (t + 1, ![0, 4, 0, -1])) (fun t _ => (t + 3 * (π / 2), ![4, 0, 1, 0, 0]))
    ![0, 4.5, 0, 0] [0] = some [(⟨0, ![0, 4.5, 0, 0], 0 + 1, ![0, 4, 0, -1]⟩,
      ⟨0 + 1, exSlip.touchdown ![0, 4, 0, -1] 0, 0 + 1 + 3 * (π / 2), ![4, 0, 1, 0, 0]⟩)] := by
  have h := one_le_pi_div_two
  simp only [Slip.simulate, List.head?_cons, Option.bind_eq_bind, Option.bind_some]
  rw [if_pos (by simp [exSlip]; norm_num)]
  unfold Slip.simLoop
  rw [if_neg (by simp [exSlip]; norm_num)]
  dsimp only
  rw [if_neg (by simp; linarith), if_neg (by simp; linarith)]
  simp [Slip.simLoop]

/-- Its phases are exact. -/
example : ExactSteps exSlip (⟨0, ![0, 4.5, 0, 0], 0 + 1, ![0, 4, 0, -1]⟩,
    ⟨0 + 1, exSlip.touchdown ![0, 4, 0, -1] 0, 0 + 1 + 3 * (π / 2), ![4, 0, 1, 0, 0]⟩) := by
  have e2 : exSlip.touchdown ![0, 4, 0, -1] 0 = ![4, 0, -1, 0, 0] := by
    ext i; fin_cases i <;> simp [Slip.touchdown, exSlip]
  refine ⟨?_, by dsimp only; rw [e2]; simp [Slip.tdGuard, exSlip], ?_, Or.inl (by simp [exSlip])⟩
  · have := flow_thrown exSlip ![0, 4.5, 0, 0] (T := 0 + 1 - 0) (by norm_num)
    convert this using 1
    ext i; fin_cases i <;> simp [thrown, exSlip]; norm_num
  · have := (exStance_exact ![4, 0, -1, 0, 0] (![4, 0, 1, 0, 0], 3 * (π / 2)) (by simp [exStance])).1
    simpa [e2] using this

/-- A stone which is hit and one which is missed. -/
example : exSlip.timeToTouchdown ![0, 4.5, 2, 0] ⟨((1 : ℝ) : EReal), ((3 : ℝ) : EReal), 0⟩ 0 = some 1 :=
  (C89_iff_partial exSlip (by norm_num [exSlip]) _ _ _ _ (Or.inr (by simp))).2
    ⟨⟨by norm_num, by simp [foot, thrown, exSlip]; norm_num, fun t' ht' => by
      simp [foot, thrown, exSlip]; nlinarith⟩, by
      simp only [EReal.coe_le_coe_iff]
      simp [foot, thrown, exSlip]
      norm_num⟩

end NNL.Props
