import Verif.Model.ExampleNew
import Verif.Props.ExampleEquilibria
import Verif.Props.ExampleSystems3
import Verif.Props.ReluSystemNew

/-!
C135: the constructors of the example systems.
-/

set_option linter.unusedSectionVars false

namespace NNL.Props

open NNL NNL.Model NNL.Spec

variable {K : Type*} [Field K] [LinearOrder K] [IsStrictOrderedRing K]

/-- What the constructors do not check: the layers of the network fit each other and one of them is hidden; the bounds of
the state have one size and are ordered. -/
structure ArgsFit (a : ExArgs K) : Prop where
  net : a.net.Ok a.net.inFeatures
  hidden : a.net.hidden ≠ []
  up : a.xUp.length = a.xLo.length
  le : ∀ i, i < a.xLo.length → a.xLo.getD i 0 ≤ a.xUp.getD i 0

/-- **C135**: from its constructor on, `UnicycleReLUModel` and `UnicycleReLUZeroVelModel` have exact programs, and the origin is a
fixed point if the limits allow zero inputs. -/
theorem C135_unicycle {a : ExArgs K} {flag : Bool} {S : ExSys K} (h : a.unicycle flag = some S) (hf : ArgsFit a) :
    (CtrlEncD (S.uniAdd flag) 3 2 (UsableEx S (uniIn 0 flag)) fun aLo aUp x u y =>
      InXAt a.xLo a.xUp x 2 ∧ InUAt a.uLo a.uUp aLo aUp u 0 ∧ (flag = true → InUAt a.uLo a.uUp aLo aUp u 1) ∧
        UniNext a.net.eval flag a.dt x u y) ∧
    (CtrlEncD (S.zeroAdd flag) 3 2 (fun aLo aUp => UsableEx S (uniIn 0 flag) aLo aUp ∧
        UsableEx S (uniIn0 0 0 flag) aLo aUp) fun aLo aUp x u y =>
      InXAt a.xLo a.xUp x 2 ∧ InUAt a.uLo a.uUp aLo aUp u 0 ∧ (flag = true → InUAt a.uLo a.uUp aLo aUp u 1) ∧
        ZeroNext a.net.eval flag a.dt x u y) ∧
    (InBox a.uLo a.uUp [0, 0] → S.uniStep flag [0, 0, 0] S.uEq = some [0, 0, 0] ∧
      S.zeroStep flag [0, 0, 0] S.uEq = some [0, 0, 0]) ∧ 0 < S.dt := by
  unfold ExArgs.unicycle at h
  change (if a.xLo.length = 3 ∧ a.uLo.length = 2 ∧ a.uUp.length = 2 ∧ a.net.inFeatures = uniSize flag ∧
      a.net.outFeatures = 2 ∧ a.dt > 0 then _ else _) = _ at h
  split_ifs at h with hc
  obtain ⟨c1, c2, c3, c4, c5, c6⟩ := hc
  cases h
  have hn := hf.net
  rw [c4] at hn
  have hok : ExOk (⟨a.xLo, a.xUp, a.uLo, a.uUp, a.net, zeros 2, a.dt, a.method⟩ : ExSys K) 3 2 (uniSize flag) 2 :=
    ⟨c1, by rw [← c1]; exact hf.up, by rw [← c1]; exact hf.le, c2, c3, by simp, hn, c5, hf.hidden⟩
  exact ⟨C76_unicycle hok, C76_zero_velocity_program hok,
    fun h0 => ⟨C79_unicycle hok h0 0 0, C79_zero_velocity hok h0 0 0 0⟩, c6⟩

/-- **C135**: `AccelerationCarReLUModel`. -/
theorem C135_car {a : ExArgs K} {S : ExSys K} (h : a.car = some S) (hf : ArgsFit a) :
    (CtrlEncD S.carAdd 4 2 (UsableEx S carIn) fun aLo aUp x u y =>
      InXAt a.xLo a.xUp x 2 ∧ InXAt a.xLo a.xUp x 3 ∧ InU a.uLo a.uUp aLo aUp u ∧ S.carStep x u = y) ∧
    S.carStep [0, 0, 0, 0] S.uEq = [0, 0, 0, 0] ∧ 0 < S.dt := by
  unfold ExArgs.car at h
  split_ifs at h with hc
  obtain ⟨c1, c2, c3, c4, c5, c6⟩ := hc
  cases h
  have hn := hf.net
  rw [c4] at hn
  have hok : ExOk (⟨a.xLo, a.xUp, a.uLo, a.uUp, a.net, zeros 2, a.dt, a.method⟩ : ExSys K) 4 2 4 2 :=
    ⟨c1, by rw [← c1]; exact hf.up, by rw [← c1]; exact hf.le, c2, c3, by simp, hn, c5, hf.hidden⟩
  exact ⟨C76_acceleration_car hok, C79_acceleration_car hok 0 0, c6⟩

/-- **C135**: `PoleReluSystem`, which does not check the sizes of the limits of the input. -/
theorem C135_pole {a : ExArgs K} {S : ExSys K} (h : a.pole = some S) (hf : ArgsFit a) (hl : a.uLo.length = 3)
    (hu : a.uUp.length = 3) :
    (CtrlEnc S.poleAdd 7 3 (UsableEx S poleIn) fun aLo aUp x u y =>
      (∀ i ∈ [0, 1, 5, 6], InXAt a.xLo a.xUp x i) ∧ InU a.uLo a.uUp aLo aUp u ∧ S.poleStep x u = y) ∧
    S.poleStep [0, 0, 0, 0, 0, 0, 0] [0, 0, a.thrust] = [0, 0, 0, 0, 0, 0, 0] := by
  unfold ExArgs.pole at h
  split_ifs at h with hc
  obtain ⟨c1, c2, c3, c4⟩ := hc
  cases h
  have hn := hf.net
  rw [c3] at hn
  have hok : ExOk (⟨a.xLo, a.xUp, a.uLo, a.uUp, a.net, [0, 0, a.thrust], a.dt, a.method⟩ : ExSys K) 7 3 7 5 :=
    ⟨c1, c2, by rw [← c1]; exact hf.le, hl, hu, rfl, hn, c4, hf.hidden⟩
  exact ⟨C77_pole hok, C79_pole hok 0 0 0⟩

/-- **C135**: `QuadrotorWithPixhawkReLUSystem`. -/
theorem C135_pixhawk {a : ExArgs K} {S : ExSys K} (h : a.pixhawk = some S) (hf : ArgsFit a) :
    (CtrlEnc S.pixAdd 9 4 (UsableU a.uLo a.uUp) fun aLo aUp x u y =>
      (∀ i ∈ [3, 4, 5], InXAt a.xLo a.xUp x i) ∧ InU a.uLo a.uUp aLo aUp u ∧ S.pixStep x u = y) ∧
    S.pixStep (zeros 9) [0, 0, 0, a.thrust] = zeros 9 ∧ 0 < S.dt := by
  unfold ExArgs.pixhawk at h
  split_ifs at h with hc
  obtain ⟨c1, c2, c3, c4, c5, c6, c7⟩ := hc
  cases h
  have hn := hf.net
  rw [c5] at hn
  have hok : ExOk (⟨a.xLo, a.xUp, a.uLo, a.uUp, a.net, [0, 0, 0, a.thrust], a.dt, a.method⟩ : ExSys K) 9 4 7 6 :=
    ⟨c1, c2, by rw [← c1]; exact hf.le, c3, c4, rfl, hn, c6, hf.hidden⟩
  exact ⟨C77_pixhawk hok, C79_pixhawk hok 0 0 0, c7⟩

/-- **C135**: `QuadrotorReLUSystem`. -/
theorem C135_quadrotor {a : ExArgs K} {S : ExSys K} (h : a.quadrotor = some S) (hf : ArgsFit a) :
    (CtrlEnc S.quadAdd 12 4 (UsableEx S quadIn) fun aLo aUp x u y =>
      (∀ i ∈ [3, 4, 5, 9, 10, 11], InXAt a.xLo a.xUp x i) ∧ InU a.uLo a.uUp aLo aUp u ∧ S.quadStep x u = y) ∧
    S.quadStep (zeros 12) (List.replicate 4 a.thrust) = zeros 12 ∧ 0 < S.dt := by
  unfold ExArgs.quadrotor at h
  split_ifs at h with hc
  obtain ⟨c1, c2, c3, c4, c5, c6, c7⟩ := hc
  cases h
  have hn := hf.net
  rw [c5] at hn
  have e : vsmul a.thrust (List.replicate 4 1) = List.replicate 4 a.thrust := by simp [vsmul]
  have hok : ExOk (⟨a.xLo, a.xUp, a.uLo, a.uUp, a.net, vsmul a.thrust (List.replicate 4 1), a.dt, a.method⟩ : ExSys K)
      12 4 10 9 :=
    ⟨c1, c2, by rw [← c1]; exact hf.le, c3, c4, by rw [e]; rfl, hn, c6, hf.hidden⟩
  refine ⟨C77_quadrotor hok, ?_, c7⟩
  have := C79_quadrotor hok 0 0 0
  rw [show (⟨a.xLo, a.xUp, a.uLo, a.uUp, a.net, vsmul a.thrust (List.replicate 4 1), a.dt, a.method⟩ : ExSys K).uEq =
    List.replicate 4 a.thrust from e] at this
  exact this

/-- **C135**: `PendulumReluContinuousTime`, with `x_equilibrium = (t, 0)`. -/
theorem C135_pendulum {a : ExArgs K} {S : ExSys K} (h : a.pendulum = some S) (hf : ArgsFit a) (t : K) :
    (CtrlEnc (addForward (S.pendMic [t, 0])) 2 1 (fun aLo aUp => FwdBounds S 1 aLo aUp ∧
        MethodValid a.net (a.xLo ++ aLo.getD a.uLo) (a.xUp ++ aUp.getD a.uUp) a.method) fun aLo aUp x u y =>
      InBox a.xLo a.xUp x ∧ InBox (aLo.getD a.uLo) (aUp.getD a.uUp) u ∧ S.pendStep [t, 0] x u = y) ∧
    S.pendStep [t, 0] [t, 0] [0] = [0, 0] := by
  unfold ExArgs.pendulum at h
  split_ifs at h with hc
  obtain ⟨c1, c2, c3, c4, c5, c6⟩ := hc
  cases h
  have hn := hf.net
  rw [c5] at hn
  have hok : ExOk (⟨a.xLo, a.xUp, a.uLo, a.uUp, a.net, [0], 0, a.method⟩ : ExSys K) 2 1 3 1 :=
    ⟨c1, c2, by rw [← c1]; exact hf.le, c3, c4, rfl, hn, c6, hf.hidden⟩
  exact ⟨C78_pendulum hok [t, 0], C79_pendulum hok t⟩

/-- **C135**: `QuadrotorReluContinuousTime`, which does not check the size of the equilibrium input. -/
theorem C135_quadrotor2d {a : ExArgs K} {S : ExSys K} (h : a.quadrotor2d = some S) (hf : ArgsFit a)
    (hu : a.uEq.length = 2) :
    (CtrlEnc (addForward S.quad2Mic) 6 2 (fun aLo aUp => FwdBounds S 2 aLo aUp ∧
        MethodValid a.net (seg a.xLo 2 3 ++ aLo.getD a.uLo) (seg a.xUp 2 3 ++ aUp.getD a.uUp) a.method)
      fun aLo aUp x u y =>
        InBox a.xLo a.xUp x ∧ InBox (aLo.getD a.uLo) (aUp.getD a.uUp) u ∧ S.quad2Step x u = y) ∧
    S.quad2Step (zeros 6) a.uEq = zeros 6 := by
  unfold ExArgs.quadrotor2d at h
  split_ifs at h with hc
  obtain ⟨c1, c2, c3, c4, c5, c6⟩ := hc
  cases h
  have hn := hf.net
  rw [c5] at hn
  have hok : ExOk (⟨a.xLo, a.xUp, a.uLo, a.uUp, a.net, a.uEq, 0, a.method⟩ : ExSys K) 6 2 3 3 :=
    ⟨c1, c2, by rw [← c1]; exact hf.le, c3, c4, hu, hn, c6, hf.hidden⟩
  exact ⟨C78_quadrotor2d hok, C79_quadrotor2d hok 0 0⟩

/-- The arguments of `exSysP`. -/
def exArgsP (n k p q : ℕ) : ExArgs ℚ :=
  ⟨List.replicate n (-1), List.replicate n 1, List.replicate k (-2), List.replicate k 2, exNetP p q, 1 / 2,
    List.replicate k (1 / 2), 1 / 10, .ia⟩

theorem exArgsP_fit (n k p q : ℕ) : ArgsFit (exArgsP n k p q) := by
  have h := exSysP_ok n k p q
  have hi : (exArgsP n k p q).net.inFeatures = p := rfl
  refine ⟨by rw [hi]; exact h.net, h.hidden, ?_, ?_⟩
  · simp [exArgsP]
  · intro i hi'
    have : i < n := by simpa [exArgsP] using hi'
    exact h.le i this

/-- All constructors return for these arguments. -/
example : ((exArgsP 3 2 3 2).unicycle true).isSome ∧ ((exArgsP 3 2 2 2).unicycle false).isSome ∧
    (exArgsP 4 2 4 2).car.isSome ∧ (exArgsP 7 3 7 5).pole.isSome ∧ (exArgsP 9 4 7 6).pixhawk.isSome ∧
    (exArgsP 12 4 10 9).quadrotor.isSome ∧ (exArgsP 2 1 3 1).pendulum.isSome ∧ (exArgsP 6 2 3 3).quadrotor2d.isSome := by
  refine ⟨?_, ?_, ?_, ?_, ?_, ?_, ?_, ?_⟩ <;> decide +kernel

/-- Arguments with a wrong size of `x_up` and bounds of which the first is above the second. -/
def badArgs : ExArgs ℚ :=
  ⟨[1, 1, 1], [-1], [-2, -2], [2, 2], exNetP 3 2, 0, [], 1 / 10, .ia⟩

/-- **C135**, the failure: `UnicycleReLUModel` is constructed with bounds that no state satisfies, whose sizes differ, and that
exclude the equilibrium; so is `PoleReluSystem` with a negative step and limits of the input of any size. -/
theorem C135_unchecked : (∃ S, badArgs.unicycle true = some S ∧ S.xLo.length ≠ S.xUp.length ∧
      (∀ x, ¬ InBox S.xLo S.xUp x) ∧ S.xUp.getD 0 0 < S.xLo.getD 0 0) ∧
    ∃ S, ({ exArgsP 7 3 7 5 with uLo := [], dt := -1 } : ExArgs ℚ).pole = some S ∧ S.uLo.length ≠ S.uUp.length ∧ S.dt < 0 := by
  refine ⟨⟨⟨[1, 1, 1], [-1], [-2, -2], [2, 2], exNetP 3 2, zeros 2, 1 / 10, .ia⟩, ?_, by decide, ?_, by decide +kernel⟩,
    ⟨List.replicate 7 (-1), List.replicate 7 1, [], List.replicate 3 2, exNetP 7 5, [0, 0, 1 / 2], -1, .ia⟩, ?_, by decide,
    by decide +kernel⟩
  · unfold ExArgs.unicycle
    rw [if_pos (by decide +kernel)]
    rfl
  · rintro x ⟨h1, h2, -⟩
    rw [h1] at h2
    exact absurd h2 (by decide)
  · unfold ExArgs.pole
    rw [if_pos (by decide +kernel)]
    rfl

end NNL.Props
