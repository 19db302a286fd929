import Verif.Spec.TrainerSetup
import Verif.Lemmas.HybridBounds

/-!
C132: the Lyapunov function and the barrier function that are given to the trainer.
-/

set_option linter.unusedSectionVars false

namespace NNL.Props

open NNL NNL.Model NNL.Spec

variable {K : Type*} [Field K] [LinearOrder K]

/-- **C132**: `add_lyapunov` returns exactly if its system is that of the barrier function given before (if any),
`V_lambda` is a float, `x_equilibrium` is a tensor in the box of the states of the system and `R_options` are options. -/
theorem C132_lyapunov (box : ℕ → StateBox K) (T : TrainerSetup K) (L : SysUser) (lam xe R : PyArg K) :
    (T.addLyapunov box L lam xe R).1 = true ↔ (∀ B, T.barrier = some B → B.sys = L.sys) ∧
      ∃ l x r, lam = .float l ∧ xe = .tensor x ∧ R = .rOptions r ∧ x.length = (box L.sys).dim ∧
        ∀ i, i < (box L.sys).dim → (box L.sys).lo.getD i ⊥ ≤ Ext.fin (x.getD i 0) ∧
          Ext.fin (x.getD i 0) ≤ (box L.sys).up.getD i ⊤ := by
  have hs : ({ T with lyap := some L } : TrainerSetup K).sameSystem ↔ ∀ B, T.barrier = some B → B.sys = L.sys := by
    simp [TrainerSetup.sameSystem, Option.mem_def]
  have hv : ∀ x : Vec K, (box L.sys).validEquilibrium x ↔ x.length = (box L.sys).dim ∧
      ∀ i, i < (box L.sys).dim → (box L.sys).lo.getD i ⊥ ≤ Ext.fin (x.getD i 0) ∧
        Ext.fin (x.getD i 0) ≤ (box L.sys).up.getD i ⊤ := by
    intro x
    simp only [StateBox.validEquilibrium]
    constructor
    · rintro ⟨h1, h2, h3⟩
      exact ⟨h1, fun i hi => ⟨h3 i hi, h2 i hi⟩⟩
    · rintro ⟨h1, h2⟩
      exact ⟨h1, fun i hi => (h2 i hi).2, fun i hi => (h2 i hi).1⟩
  simp only [TrainerSetup.addLyapunov, ← hv]
  rw [← hs]
  split_ifs with h
  · cases lam <;> cases xe <;> simp [h]
    split_ifs with h' <;> cases R <;> simp [h']
  · simp [h]

/-- **C132**: if `add_lyapunov` returns, the four attributes are those given and the others are as before. -/
theorem C132_lyapunov_sets (box : ℕ → StateBox K) (T : TrainerSetup K) (L : SysUser) (l : K) (x : Vec K) (r : ℕ)
    (h : (T.addLyapunov box L (.float l) (.tensor x) (.rOptions r)).1 = true) :
    (T.addLyapunov box L (.float l) (.tensor x) (.rOptions r)).2 =
      { T with lyap := some L, vLambda := some l, xEq := some x, rOpt := some r } := by
  simp only [TrainerSetup.addLyapunov] at h ⊢
  split_ifs at h with h1 h2
  rw [if_pos h1, if_pos h2]

/-- **C132**: `add_barrier` returns exactly if its system is that of the Lyapunov function given before (if any), `c` and
`barrier_epsilon` are floats and the latter is not negative. -/
theorem C132_barrier (T : TrainerSetup K) (B : SysUser) (xs c eps : PyArg K) :
    (T.addBarrier B xs c eps).1 = true ↔ (∀ L, T.lyap = some L → B.sys = L.sys) ∧
      ∃ cv e, c = .float cv ∧ eps = .float e ∧ 0 ≤ e := by
  have hs : ({ T with barrier := some B } : TrainerSetup K).sameSystem ↔ ∀ L, T.lyap = some L → B.sys = L.sys := by
    simp [TrainerSetup.sameSystem, Option.mem_def]
  simp only [TrainerSetup.addBarrier]
  rw [← hs]
  split_ifs with h
  · cases c <;> cases eps <;> simp [h]
    split_ifs with h' <;> simpa using h'
  · simp [h]

/-- **C132**: if `add_barrier` returns, the four attributes are those given and the others are as before. -/
theorem C132_barrier_sets (T : TrainerSetup K) (B : SysUser) (xs : PyArg K) (cv e : K)
    (h : (T.addBarrier B xs (.float cv) (.float e)).1 = true) :
    (T.addBarrier B xs (.float cv) (.float e)).2 =
      { T with barrier := some B, xStar := some xs, c := some cv, eps := some e } := by
  simp only [TrainerSetup.addBarrier] at h ⊢
  split_ifs at h with h1 h2
  rw [if_pos h1, if_pos h2]

theorem addLyapunov_keeps (box : ℕ → StateBox K) (T : TrainerSetup K) (L : SysUser) (lam xe R : PyArg K) :
    (T.addLyapunov box L lam xe R).2.barrier = T.barrier ∧ (T.addLyapunov box L lam xe R).2.xStar = T.xStar ∧
    (T.addLyapunov box L lam xe R).2.c = T.c ∧ (T.addLyapunov box L lam xe R).2.eps = T.eps ∧
    (T.addLyapunov box L lam xe R).2.lyap = some L := by
  simp only [TrainerSetup.addLyapunov]
  split_ifs
  · cases lam <;> cases xe <;> simp
    split_ifs <;> cases R <;> simp
  · simp

theorem addBarrier_keeps (T : TrainerSetup K) (B : SysUser) (xs c eps : PyArg K) :
    (T.addBarrier B xs c eps).2.lyap = T.lyap ∧ (T.addBarrier B xs c eps).2.vLambda = T.vLambda ∧
    (T.addBarrier B xs c eps).2.xEq = T.xEq ∧ (T.addBarrier B xs c eps).2.rOpt = T.rOpt ∧
    (T.addBarrier B xs c eps).2.barrier = some B := by
  simp only [TrainerSetup.addBarrier]
  split_ifs
  · cases c <;> cases eps <;> simp
    split_ifs <;> simp
  · simp

/-- **C132**, every history of calls, with any rejected calls in it: if the last call of `add_lyapunov` returned, the
Lyapunov function is complete and its equilibrium is in the box of its system; if the last call of `add_barrier`
returned, the barrier function is complete; if both did, they have one system. -/
theorem C132_history {box : ℕ → StateBox K} {cs : List (SetupCall K)} {T : TrainerSetup K} {a b : Bool}
    (h : History box cs T a b) :
    (a = true → LyapReady box T) ∧ (b = true → BarrierReady T) ∧ (a = true → b = true → OneSystem T) := by
  induction h with
  | new => exact ⟨fun _ L h => (by cases h), fun _ B h => (by cases h), fun _ _ L B h => (by cases h)⟩
  | @lyapunov cs T a b L lam xe R _ ih =>
    obtain ⟨k1, k2, k3, k4, k5⟩ := addLyapunov_keeps box T L lam xe R
    refine ⟨fun ha => ?_, fun hb => ?_, fun ha _ => ?_⟩
    · obtain ⟨-, l, x, r, rfl, rfl, rfl, hx, hi⟩ := (C132_lyapunov box T L lam xe R).1 ha
      rw [C132_lyapunov_sets box T L l x r ha]
      rintro L' ⟨⟩
      exact ⟨by simp, by simp, x, rfl, hx, hi⟩
    · intro B hB
      rw [k1] at hB
      rw [k2, k3, k4]
      exact ih.2.1 hb B hB
    · intro L' B hL hB
      rw [k5] at hL
      rw [k1] at hB
      cases hL
      exact (((C132_lyapunov box T L lam xe R).1 ha).1 B hB).symm
  | @barrier cs T a b B xs c e _ ih =>
    obtain ⟨k1, k2, k3, k4, k5⟩ := addBarrier_keeps T B xs c e
    refine ⟨fun ha => ?_, fun hb => ?_, fun _ hb => ?_⟩
    · intro L hL
      rw [k1] at hL
      rw [k2, k3, k4]
      exact ih.1 ha L hL
    · obtain ⟨-, cv, ev, rfl, rfl, he⟩ := (C132_barrier T B xs c e).1 hb
      rw [C132_barrier_sets T B xs cv ev hb]
      rintro B' ⟨⟩
      exact ⟨by simp, by simp, ev, rfl, he⟩
    · intro L B' hL hB
      rw [k1] at hL
      rw [k5] at hB
      cases hB
      exact (((C132_barrier T B xs c e).1 hb).1 L hL).symm

/-- **C132**: on a new trainer the order of the two calls does not matter. -/
theorem C132_order (box : ℕ → StateBox K) (L B : SysUser) (lam xe R xs c eps : PyArg K) :
    let T : TrainerSetup K := {}
    ((T.addLyapunov box L lam xe R).1 = true ∧ ((T.addLyapunov box L lam xe R).2.addBarrier B xs c eps).1 = true ↔
      (T.addBarrier B xs c eps).1 = true ∧ ((T.addBarrier B xs c eps).2.addLyapunov box L lam xe R).1 = true) ∧
    ((T.addLyapunov box L lam xe R).1 = true → ((T.addLyapunov box L lam xe R).2.addBarrier B xs c eps).1 = true →
      ((T.addLyapunov box L lam xe R).2.addBarrier B xs c eps).2 =
        ((T.addBarrier B xs c eps).2.addLyapunov box L lam xe R).2) := by
  intro T
  have e1 := (C132_lyapunov box T L lam xe R)
  have e2 := (C132_barrier T B xs c eps)
  have e3 := (C132_barrier (T.addLyapunov box L lam xe R).2 B xs c eps)
  have e4 := (C132_lyapunov box (T.addBarrier B xs c eps).2 L lam xe R)
  rw [(addLyapunov_keeps box T L lam xe R).2.2.2.2] at e3
  rw [(addBarrier_keeps T B xs c eps).2.2.2.2] at e4
  have h0 : ∀ B, T.barrier = some B → B.sys = L.sys := fun B h => by cases h
  have h1 : ∀ L, T.lyap = some L → B.sys = L.sys := fun L h => by cases h
  simp only [Option.some.injEq, forall_eq'] at e3 e4
  refine ⟨?_, ?_⟩
  · rw [e1, e2, e3, e4]
    constructor
    · rintro ⟨⟨-, p⟩, hs, q⟩
      exact ⟨⟨h1, q⟩, hs, p⟩
    · rintro ⟨⟨-, q⟩, hs, p⟩
      exact ⟨⟨h0, p⟩, hs, q⟩
  · intro a b
    have a' := e1.1 a
    have b' := e3.1 b
    obtain ⟨-, l, x, r, rfl, rfl, rfl, h⟩ := a'
    obtain ⟨hs, cv, e, rfl, rfl, he⟩ := b'
    have c1 : (T.addBarrier B xs (.float cv) (.float e)).1 = true := e2.2 ⟨h1, cv, e, rfl, rfl, he⟩
    have c2 := e4.2 ⟨hs, l, x, r, rfl, rfl, rfl, h⟩
    rw [C132_barrier_sets _ B xs cv e b, C132_lyapunov_sets box _ L l x r c2, C132_lyapunov_sets box T L l x r a,
      C132_barrier_sets T B xs cv e c1]

/-- **C132**: as long as no call raises, the system of a trainer with both functions stays the same. -/
theorem C132_system_fixed (box : ℕ → StateBox K) {T : TrainerSetup K} {L B : SysUser} (hL : T.lyap = some L)
    (hB : T.barrier = some B) (h : OneSystem T) :
    (∀ L' lam xe R, (T.addLyapunov box L' lam xe R).1 = true → L'.sys = L.sys) ∧
    ∀ B' xs c e, (T.addBarrier B' xs c e).1 = true → B'.sys = B.sys := by
  have := h L B hL hB
  constructor
  · intro L' lam xe R ha
    rw [← ((C132_lyapunov box T L' lam xe R).1 ha).1 B hB, this]
  · intro B' xs c e hb
    rw [((C132_barrier T B' xs c e).1 hb).1 L hL, this]

/-- Two systems: the states of the first are in `[-1, 1]`, those of the second in `[2, 3]`. -/
def exBoxes : ℕ → StateBox ℚ := fun i =>
  if i = 0 then ⟨1, [Ext.fin (-1)], [Ext.fin 1]⟩ else ⟨1, [Ext.fin 2], [Ext.fin 3]⟩

theorem exBoxes_valid : (∀ i, i < (exBoxes 0).dim → (exBoxes 0).lo.getD i ⊥ ≤ Ext.fin (([0] : Vec ℚ).getD i 0) ∧
    Ext.fin (([0] : Vec ℚ).getD i 0) ≤ (exBoxes 0).up.getD i ⊤) := by
  intro i hi
  obtain rfl : i = 0 := by
    simp [exBoxes] at hi
    exact hi
  simp [exBoxes, fin_le_fin]

/-- **C132**, the failure: a call of `add_lyapunov` that raises keeps the new function; then `add_barrier` for its system
returns, and the trainer has a function of the second system with an equilibrium of the first, outside the box. -/
theorem C132_stale_counterexample : ∃ (cs : List (SetupCall ℚ)) (T : TrainerSetup ℚ),
    History exBoxes cs T false true ∧ OneSystem T ∧ ¬ LyapReady exBoxes T := by
  have h1 := (History.new (box := exBoxes)).lyapunov (L := ⟨0, 0⟩) (lam := .float 1) (xe := .tensor [0]) (R := .rOptions 0)
  have a1 : (({} : TrainerSetup ℚ).addLyapunov exBoxes ⟨0, 0⟩ (.float 1) (.tensor [0]) (.rOptions 0)).1 = true :=
    (C132_lyapunov _ _ _ _ _ _).2 ⟨fun B h => (by cases h), 1, [0], 0, rfl, rfl, rfl, rfl, exBoxes_valid⟩
  rw [C132_lyapunov_sets _ _ _ 1 [0] 0 a1] at h1
  have h2 := h1.lyapunov (L := ⟨1, 1⟩) (lam := .other) (xe := .tensor [2]) (R := .rOptions 0)
  have e2 : ∀ T : TrainerSetup ℚ, T.barrier = none → T.addLyapunov exBoxes ⟨1, 1⟩ .other (.tensor [2]) (.rOptions 0) =
      (false, { T with lyap := some ⟨1, 1⟩ }) := by
    intro T hT
    simp [TrainerSetup.addLyapunov]
  rw [e2 _ rfl] at h2
  have h3 := h2.barrier (B := ⟨2, 1⟩) (xs := .tensor [2]) (c := .float 1) (e := .float 0)
  have a3 := (C132_barrier { ({} : TrainerSetup ℚ) with lyap := some ⟨1, 1⟩, vLambda := some 1, xEq := some [0], rOpt := some 0 }
    ⟨2, 1⟩ (.tensor [2]) (.float 1) (.float 0)).2 ⟨by rintro L ⟨⟩; rfl, 1, 0, rfl, rfl, le_rfl⟩
  have e3 := C132_barrier_sets { ({} : TrainerSetup ℚ) with lyap := some ⟨1, 1⟩, vLambda := some 1, xEq := some [0], rOpt := some 0 }
    ⟨2, 1⟩ (.tensor [2]) 1 0 a3
  rw [a3, e3] at h3
  refine ⟨_, _, h3, ?_, ?_⟩
  · rintro L B ⟨⟩ ⟨⟩
    rfl
  · intro h
    obtain ⟨-, -, x, ⟨⟩, -, hx⟩ := h ⟨1, 1⟩ rfl
    have := (hx 0 (by simp [exBoxes])).1
    simp [exBoxes, fin_le_fin] at this
    norm_num at this

/-- **C132**, the failure: neither the sign of `c` nor `x_star` are checked; with `c ≤ 0` the call returns, and the loss on
samples raises for every batch. -/
theorem C132_constant_unchecked (T : TrainerSetup K) (B : SysUser) (hs : ∀ L, T.lyap = some L → B.sys = L.sys)
    (xs : PyArg K) {cv e : K} (hc : cv ≤ 0) (he : 0 ≤ e) :
    (T.addBarrier B xs (.float cv) (.float e)).1 = true ∧ (T.addBarrier B xs (.float cv) (.float e)).2.c = some cv ∧
    ∀ (N : Lyap K) (states next : List (Vec K)) (star : Vec K) (margin : K),
      N.barrierHinge states next star cv e margin = none := by
  have h := (C132_barrier T B xs (.float cv) (.float e)).2 ⟨hs, cv, e, rfl, rfl, he⟩
  refine ⟨h, by rw [C132_barrier_sets T B xs cv e h], fun N states next star margin => ?_⟩
  rw [Lyap.barrierHinge, if_neg (fun h => absurd h.1 (not_lt.2 hc))]

/-- Both functions for the first system, in either order. -/
example : ∃ (cs : List (SetupCall ℚ)) (T : TrainerSetup ℚ), cs.length = 2 ∧ History exBoxes cs T true true ∧
    T.xEq = some [0] ∧ T.c = some (1 / 2) ∧ LyapReady exBoxes T ∧ BarrierReady T ∧ OneSystem T := by
  have h1 := (History.new (box := exBoxes)).lyapunov (L := ⟨0, 0⟩) (lam := .float 1) (xe := .tensor [0]) (R := .rOptions 0)
  have a1 : (({} : TrainerSetup ℚ).addLyapunov exBoxes ⟨0, 0⟩ (.float 1) (.tensor [0]) (.rOptions 0)).1 = true :=
    (C132_lyapunov _ _ _ _ _ _).2 ⟨fun B h => (by cases h), 1, [0], 0, rfl, rfl, rfl, rfl, exBoxes_valid⟩
  rw [a1, C132_lyapunov_sets _ _ _ 1 [0] 0 a1] at h1
  have h3 := h1.barrier (B := ⟨2, 0⟩) (xs := .tensor [1]) (c := .float (1 / 2)) (e := .float 0)
  have a3 := (C132_barrier { ({} : TrainerSetup ℚ) with lyap := some ⟨0, 0⟩, vLambda := some 1, xEq := some [0], rOpt := some 0 }
    ⟨2, 0⟩ (.tensor [1]) (.float (1 / 2)) (.float 0)).2 ⟨by rintro L ⟨⟩; rfl, 1 / 2, 0, rfl, rfl, le_rfl⟩
  have e3 := C132_barrier_sets { ({} : TrainerSetup ℚ) with lyap := some ⟨0, 0⟩, vLambda := some 1, xEq := some [0], rOpt := some 0 }
    ⟨2, 0⟩ (.tensor [1]) (1 / 2) 0 a3
  rw [a3, e3] at h3
  obtain ⟨p, q, r⟩ := C132_history h3
  exact ⟨_, _, rfl, h3, rfl, rfl, p rfl, q rfl, r rfl rfl⟩

end NNL.Props
