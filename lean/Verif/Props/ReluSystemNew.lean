import Verif.Model.ReluSystemNew
import Verif.Props.ReluSystem

/-!
C133: the constructors of the systems whose dynamics is a network.
-/

set_option linter.unusedSectionVars false

namespace NNL.Props

open NNL NNL.Model NNL.Spec

variable {K : Type*} [Field K] [LinearOrder K] [IsStrictOrderedRing K]

/-- The shapes of consecutive layers match: then the number of inputs is that of the first layer. -/
theorem ok_inFeatures {net : Net K} {n : ℕ} (h : net.Ok n) : net.inFeatures = n := by
  obtain ⟨h1, -⟩ := h
  unfold Net.inFeatures
  cases hh : net.hidden with
  | nil => rw [hh] at h1; exact h1.symm
  | cons p l =>
    obtain ⟨a, b⟩ := p
    rw [hh] at h1
    exact h1.1

/-- **C133**: `ReLUSystemGivenEquilibrium` exists exactly for ordered bounds of the states and of the inputs, a network from
states and inputs to states, and an equilibrium within the bounds. Then its constraints can be added for all usable
bounds of the inputs, they hold exactly for the successors, and the equilibrium is a fixed point within the bounds (or
its velocity is zero). -/
theorem C133_controlled (xLo xUp uLo uUp : Vec K) (net : Net K) (hnet : net.Ok net.inFeatures) (xEq uEq : Vec K)
    (discrete : Bool) :
    ((CtrlRelu.newEq xLo xUp uLo uUp net xEq uEq discrete).isSome ↔
      (xUp.length = xLo.length ∧ ∀ i, i < xLo.length → xLo.getD i 0 ≤ xUp.getD i 0) ∧
      (uUp.length = uLo.length ∧ ∀ i, i < uLo.length → uLo.getD i 0 ≤ uUp.getD i 0) ∧
      net.inFeatures = xLo.length + uLo.length ∧ net.outFeatures = xLo.length ∧
      InBox xLo xUp xEq ∧ InBox uLo uUp uEq) ∧
    ∀ S, CtrlRelu.newEq xLo xUp uLo uUp net xEq uEq discrete = some S →
      (net.hidden ≠ [] → CtrlEnc (addCtrl uLo uUp S.micEq) xLo.length uLo.length (UsableU uLo uUp)
        fun aLo aUp x u y => InBox xLo xUp x ∧ InU uLo uUp aLo aUp u ∧ y = S.stepEq x u) ∧
      S.stepEq xEq uEq = (if discrete then xEq else zeros xLo.length) ∧ InBox xLo xUp xEq ∧ InBox uLo uUp uEq := by
  have key : (xLo.length = xUp.length ∧ allLe xLo xUp ∧ uLo.length = uUp.length ∧ allLe uLo uUp ∧
      net.inFeatures = xLo.length + uLo.length ∧ net.outFeatures = xLo.length ∧
      xEq.length = xLo.length ∧ allLe xLo xEq ∧ allLe xEq xUp ∧ uEq.length = uLo.length ∧ allLe uLo uEq ∧ allLe uEq uUp) ↔
      (xUp.length = xLo.length ∧ ∀ i, i < xLo.length → xLo.getD i 0 ≤ xUp.getD i 0) ∧
      (uUp.length = uLo.length ∧ ∀ i, i < uLo.length → uLo.getD i 0 ≤ uUp.getD i 0) ∧
      net.inFeatures = xLo.length + uLo.length ∧ net.outFeatures = xLo.length ∧
      InBox xLo xUp xEq ∧ InBox uLo uUp uEq := by
    unfold allLe InBox
    constructor
    · rintro ⟨h1, h2, h3, h4, h5, h6, h7, h8, h9, h10, h11, h12⟩
      refine ⟨⟨h1.symm, h2⟩, ⟨h3.symm, h4⟩, h5, h6, ⟨h7, by omega, fun i hi => ⟨h8 i ?_, h9 i ?_⟩⟩,
        ⟨h10, by omega, fun i hi => ⟨h11 i ?_, h12 i ?_⟩⟩⟩ <;> omega
    · rintro ⟨⟨h1, h2⟩, ⟨h3, h4⟩, h5, h6, ⟨h7, h7', h8⟩, ⟨h10, h10', h11⟩⟩
      refine ⟨h1.symm, h2, h3.symm, h4, h5, h6, h7, fun i hi => (h8 i ?_).1, fun i hi => (h8 i ?_).2, h10,
        fun i hi => (h11 i ?_).1, fun i hi => (h11 i ?_).2⟩ <;> omega
  refine ⟨?_, ?_⟩
  · rw [← key, CtrlRelu.newEq]
    split_ifs with h <;> simp [h]
  · intro S h
    rw [CtrlRelu.newEq] at h
    split_ifs at h with hc
    obtain ⟨⟨h1, h2⟩, ⟨h3, h4⟩, h5, h6, h7, h8⟩ := key.1 hc
    cases h
    rw [h5] at hnet
    have hok : CtrlRelu.Ok (⟨xLo, xUp, uLo, uUp, net, xEq, uEq, discrete⟩ : CtrlRelu K) xLo.length uLo.length :=
      ⟨hnet, h6, rfl, h1, h2, rfl, h3, h7.1, h8.1⟩
    exact ⟨fun hh => C50_controlled_equilibrium hok hh, C49_controlled hok, h7, h8⟩

/-- **C133**: `ReLUSystem`. -/
theorem C133_plain (xLo xUp uLo uUp : Vec K) (net : Net K) (hnet : net.Ok net.inFeatures) :
    ((CtrlRelu.new xLo xUp uLo uUp net).isSome ↔
      (xUp.length = xLo.length ∧ ∀ i, i < xLo.length → xLo.getD i 0 ≤ xUp.getD i 0) ∧
      (uUp.length = uLo.length ∧ ∀ i, i < uLo.length → uLo.getD i 0 ≤ uUp.getD i 0) ∧
      net.inFeatures = xLo.length + uLo.length ∧ net.outFeatures = xLo.length) ∧
    ∀ S, CtrlRelu.new xLo xUp uLo uUp net = some S → net.hidden ≠ [] →
      CtrlEnc (addCtrl uLo uUp S.mic) xLo.length uLo.length (UsableU uLo uUp)
        fun aLo aUp x u y => InBox xLo xUp x ∧ InU uLo uUp aLo aUp u ∧ y = net.eval (x ++ u) := by
  refine ⟨?_, ?_⟩
  · rw [CtrlRelu.new]
    unfold allLe
    split_ifs with h
    · obtain ⟨h1, h2, h3, h4, h5, h6⟩ := h
      simp only [Option.isSome_some, true_iff]
      exact ⟨⟨h1.symm, h2⟩, ⟨h3.symm, h4⟩, h5, h6⟩
    · simp only [Option.isSome_none, Bool.false_eq_true, false_iff]
      rintro ⟨⟨h1, h2⟩, ⟨h3, h4⟩, h5, h6⟩
      exact h ⟨h1.symm, h2, h3.symm, h4, h5, h6⟩
  · intro S h hh
    rw [CtrlRelu.new] at h
    split_ifs at h with hc
    obtain ⟨h1, h2, h3, h4, h5, h6⟩ := hc
    cases h
    rw [h5] at hnet
    have hok : CtrlRelu.Ok (⟨xLo, xUp, uLo, uUp, net, zeros xLo.length, zeros uLo.length, true⟩ : CtrlRelu K)
        xLo.length uLo.length := ⟨hnet, h6, rfl, h1.symm, h2, rfl, h3.symm, by simp, by simp⟩
    exact C50_controlled hok hh

/-- **C133**: the autonomous systems. The constructor compares the inputs of the network with its outputs, not with the
states. If they fit, the constraints are returned and hold exactly for the successors in the box, and the equilibrium
is a fixed point (or its velocity is zero). -/
theorem C133_autonomous (xLo xUp : Vec K) (net : Net K) (hnet : net.Ok net.inFeatures) (xEq : Vec K) (discrete : Bool)
    {S : AutoRelu K} (h : AutoRelu.newEq xLo xUp net xEq discrete .ia = some S) (hfit : net.inFeatures = xLo.length) :
    (net.hidden ≠ [] → (∃ r, S.micEq = some r ∧ ∀ x y, x.length = xLo.length →
        ((∃ s z, r.mic.Feas x s z ∧ r.mic.out x s z = y) ↔ InBox xLo xUp x ∧ y = S.stepEq x)) ∧
      ∃ r, S.micRes = some r ∧ ∀ x y, x.length = xLo.length →
        ((∃ s z, r.mic.Feas x s z ∧ r.mic.out x s z = y) ↔ InBox xLo xUp x ∧ y = S.stepRes x)) ∧
    S.stepEq xEq = (if discrete then xEq else zeros xLo.length) ∧
    S.stepRes xEq = (if discrete then xEq else zeros xLo.length) := by
  rw [AutoRelu.newEq] at h
  split_ifs at h with hc
  obtain ⟨h1, h2, h3, h4⟩ := hc
  cases h
  rw [hfit] at hnet h3
  have hok : AutoRelu.Ok (⟨xLo, xUp, net, xEq, discrete, .ia⟩ : AutoRelu K) xLo.length :=
    ⟨hnet, h3.symm, rfl, h1.symm, h2, h4⟩
  refine ⟨fun hh => ?_, C49_auto hok, C49_residual hok⟩
  obtain ⟨-, a2, a3⟩ := C50_auto_accepts hok rfl hh
  obtain ⟨r, hr⟩ := Option.isSome_iff_exists.1 a2
  obtain ⟨r', hr'⟩ := Option.isSome_iff_exists.1 a3
  exact ⟨⟨r, hr, (C50_auto_equilibrium hok trivial hr).1⟩, r', hr', (C50_auto_residual hok trivial hr').1⟩

/-- **C133**: the second-order systems exist exactly for bounds of matching sizes, a network from states (or the listed
ones) and inputs to at most as many velocities as there are states, an equilibrium position for the remaining states
that is, with zero velocities, within the bounds, an equilibrium input within the bounds and a positive step. -/
theorem C133_second_accepts (xLo xUp uLo uUp : Vec K) (net : Net K) (qEq uEq : Vec K) (dt : K) (idx : Option (List ℕ)) :
    (SecondRelu.new xLo xUp uLo uUp net qEq uEq dt idx).isSome ↔
      net.inFeatures = (match idx with | none => xLo.length | some l => l.length) + uLo.length ∧
      qEq.length + net.outFeatures = xLo.length ∧ InBox xLo xUp (qEq ++ zeros net.outFeatures) ∧ InBox uLo uUp uEq ∧
      0 < dt := by
  unfold SecondRelu.new allLe InBox
  simp only [List.length_append, length_zeros]
  split_ifs with h
  · obtain ⟨h1, h2, h3, h4, h5, h6, h7, h8, h9, h10, h11⟩ := h
    simp only [Option.isSome_some, true_iff]
    refine ⟨h3, by omega, ⟨by omega, by omega, fun i hi => ⟨h6 i ?_, h7 i ?_⟩⟩, ⟨h8, by omega,
      fun i hi => ⟨h9 i ?_, h10 i ?_⟩⟩, h11⟩ <;> omega
  · simp only [Option.isSome_none, Bool.false_eq_true, false_iff]
    rintro ⟨h3, h4, ⟨h5, h5', h6⟩, ⟨h8, h8', h9⟩, h11⟩
    refine h ⟨by omega, by omega, h3, by omega, by omega, fun i hi => (h6 i ?_).1, fun i hi => (h6 i ?_).2, h8,
      fun i hi => (h9 i ?_).1, fun i hi => (h9 i ?_).2, h11⟩ <;> omega

/-- **C133**: a second-order system with as many positions as velocities: the constraints can be added for all usable
bounds of the inputs and hold exactly for the successors; the equilibrium is a fixed point within the bounds. -/
theorem C133_second {xLo xUp uLo uUp : Vec K} {net : Net K} (hnet : net.Ok net.inFeatures) {qEq uEq : Vec K} {dt : K}
    {S : SecondRelu K} (h : SecondRelu.new xLo xUp uLo uUp net qEq uEq dt none = some S)
    (hq : qEq.length = net.outFeatures) :
    (net.hidden ≠ [] → CtrlEnc (addCtrl uLo uUp S.mic) xLo.length uLo.length (UsableU uLo uUp)
      fun aLo aUp x u y => InBox xLo xUp x ∧ InU uLo uUp aLo aUp u ∧ y = S.step x u) ∧
    S.step (qEq ++ zeros qEq.length) uEq = qEq ++ zeros qEq.length ∧ InBox xLo xUp (qEq ++ zeros qEq.length) := by
  have ha := (C133_second_accepts xLo xUp uLo uUp net qEq uEq dt none).1 (by rw [h]; rfl)
  obtain ⟨h1, h2, h3, h4, h5⟩ := ha
  unfold SecondRelu.new at h
  dsimp only at h
  split_ifs at h with hc
  cases h
  have lx : xLo.length = qEq.length + qEq.length := by omega
  have hle : ∀ i, i < qEq.length + qEq.length → xLo.getD i 0 ≤ xUp.getD i 0 := by
    intro i hi
    have := h3.2.2 i (by rw [h3.1] at *; omega)
    exact this.1.trans this.2
  have hok : SecondRelu.Ok (⟨xLo, xUp, uLo, uUp, net, qEq, uEq, dt, [], .ia⟩ : SecondRelu K) qEq.length uLo.length :=
    ⟨hq.symm, lx, by rw [hc.1, lx], hle, rfl, hc.2.1, rfl, h4.1⟩
  simp only at h1
  rw [h1, lx] at hnet
  rw [← hq] at h3
  refine ⟨fun hh => ?_, C49_second_order hok hnet, h3⟩
  have := C50_second_order hok hnet hh
  rw [lx]
  exact this

/-- **C133**: the residue system, likewise, if the indices are those of states. The constraints do not bound the states
that are not inputs of the network. -/
theorem C133_residue {xLo xUp uLo uUp : Vec K} {net : Net K} (hnet : net.Ok net.inFeatures) {qEq uEq : Vec K} {dt : K}
    {idx : List ℕ} {S : SecondRelu K} (h : SecondRelu.new xLo xUp uLo uUp net qEq uEq dt (some idx) = some S)
    (hq : qEq.length = net.outFeatures) (hi : ∀ i ∈ idx, i < xLo.length) :
    (net.hidden ≠ [] → CtrlEnc S.addResidue xLo.length uLo.length (UsableU uLo uUp) fun aLo aUp x u y =>
      (∀ i ∈ idx, xLo.getD i 0 ≤ x.getD i 0 ∧ x.getD i 0 ≤ xUp.getD i 0) ∧ InU uLo uUp aLo aUp u ∧
        S.stepRes x u = some y) ∧
    S.stepRes (qEq ++ zeros qEq.length) uEq = some (qEq ++ zeros qEq.length) ∧
    InBox xLo xUp (qEq ++ zeros qEq.length) := by
  have ha := (C133_second_accepts xLo xUp uLo uUp net qEq uEq dt (some idx)).1 (by rw [h]; rfl)
  obtain ⟨h1, h2, h3, h4, h5⟩ := ha
  unfold SecondRelu.new at h
  dsimp only at h
  split_ifs at h with hc
  cases h
  have lx : xLo.length = qEq.length + qEq.length := by omega
  have hle : ∀ i, i < qEq.length + qEq.length → xLo.getD i 0 ≤ xUp.getD i 0 := by
    intro i hi
    have := h3.2.2 i (by rw [h3.1] at *; omega)
    exact this.1.trans this.2
  have hok : SecondRelu.Ok (⟨xLo, xUp, uLo, uUp, net, qEq, uEq, dt, idx, .ia⟩ : SecondRelu K) qEq.length uLo.length :=
    ⟨hq.symm, lx, by rw [hc.1, lx], hle, rfl, hc.2.1, rfl, h4.1⟩
  simp only at h1
  rw [h1] at hnet
  rw [← hq] at h3
  rw [lx] at hi
  refine ⟨fun hh => ?_, C49_second_order_residue hok hnet hi, h3⟩
  have := C50_residue hok hnet hi hh rfl
  rw [lx]
  exact this

/-- **C133**, the failure: with another number of positions than velocities the constructor returns, but the constraints
are never returned. -/
theorem C133_positions_unchecked {xLo xUp uLo uUp : Vec K} {net : Net K} {qEq uEq : Vec K} {dt : K} {S : SecondRelu K}
    (h : SecondRelu.new xLo xUp uLo uUp net qEq uEq dt none = some S) (hq : qEq.length ≠ net.outFeatures)
    (lo up : Option (Vec K)) : S.mic lo up = none := by
  have ha := (C133_second_accepts xLo xUp uLo uUp net qEq uEq dt none).1 (by rw [h]; rfl)
  obtain ⟨h1, h2, -⟩ := ha
  unfold SecondRelu.new at h
  dsimp only at h
  split_ifs at h with hc
  cases h
  unfold SecondRelu.mic
  have e : ∀ A C, SecondRelu.secondOut (⟨xLo, xUp, uLo, uUp, net, qEq, uEq, dt, [], .ia⟩ : SecondRelu K) A C = none := by
    intro A C
    unfold SecondRelu.secondOut SecondRelu.nq SecondRelu.nv
    rw [if_neg]
    unfold Net.outFeatures at *
    dsimp only
    omega
  simp only [Option.getD_none, e, Option.bind_eq_bind]
  simp

/-- A system with two positions and one velocity is constructed. -/
theorem C133_positions_counterexample : ∃ S : SecondRelu ℚ,
    SecondRelu.new [-1, -1, -1] [1, 1, 1] [-1] [1] ⟨[(⟨4, [[1, 0, 1, 1]], some [0]⟩, .relu)], ⟨1, [[1]], some [0]⟩⟩
      [0, 0] [0] (1 / 10) none = some S ∧ ∀ lo up, S.mic lo up = none := by
  have h : (SecondRelu.new ([-1, -1, -1] : Vec ℚ) [1, 1, 1] [-1] [1]
      ⟨[(⟨4, [[1, 0, 1, 1]], some [0]⟩, .relu)], ⟨1, [[1]], some [0]⟩⟩ [0, 0] [0] (1 / 10) none).isSome := by
    decide +kernel
  obtain ⟨S, hS⟩ := Option.isSome_iff_exists.1 h
  exact ⟨S, hS, fun lo up => C133_positions_unchecked hS (by decide) lo up⟩

/-- **C133**, the failure: an autonomous system with two states and a network of one input is constructed. -/
theorem C133_states_counterexample : ∃ S : AutoRelu ℚ,
    AutoRelu.new [-1, -1] [1, 1] ⟨[(⟨1, [[1]], some [0]⟩, .relu)], ⟨1, [[1]], some [0]⟩⟩ .ia = some S ∧
      (S.net.eval [1, 1]).length ≠ S.xLo.length := by
  refine ⟨_, rfl, ?_⟩
  decide +kernel

/-- The examples of C50 are what the constructors return. -/
example : CtrlRelu.newEq exCtrl.xLo exCtrl.xUp exCtrl.uLo exCtrl.uUp exCtrl.net exCtrl.xEq exCtrl.uEq true = some exCtrl ∧
    AutoRelu.newEq exAutoRelu.xLo exAutoRelu.xUp exAutoRelu.net exAutoRelu.xEq true .ia = some exAutoRelu ∧
    SecondRelu.new exSecond.xLo exSecond.xUp exSecond.uLo exSecond.uUp exSecond.net exSecond.qEq exSecond.uEq exSecond.dt
      (some exSecond.idx) = some exSecond ∧ exCtrl.net.Ok exCtrl.net.inFeatures ∧ exSecond.net.Ok exSecond.net.inFeatures ∧
    exSecond.qEq.length = exSecond.net.outFeatures := by
  refine ⟨?_, ?_, ?_, exCtrl_ok.net, ?_, rfl⟩
  · rw [CtrlRelu.newEq, if_pos (by decide +kernel)]; rfl
  · rw [AutoRelu.newEq, if_pos (by decide +kernel)]; rfl
  · unfold SecondRelu.new; dsimp only; rw [if_pos (by decide +kernel)]; rfl
  · simp [exSecond, exNet, Net.Ok, HidOk, Lin.Ok, HasCols, Lin.b, zeros, Net.inFeatures]

end NNL.Props
