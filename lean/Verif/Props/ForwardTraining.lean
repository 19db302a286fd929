import Verif.Model.ForwardTraining
import Verif.Spec.ForwardTraining
import Verif.Props.ExampleSystems
import Verif.Model.Feedback
import Verif.Model.UnicycleFeedback
import Verif.Spec.Lyapunov

/-!
C121: the networks are fitted to the prediction error of the systems that are verified.
-/

set_option linter.unusedSectionVars false

namespace NNL.Props

open NNL NNL.Model NNL.Spec

variable {K : Type*} [Field K] [LinearOrder K] [IsStrictOrderedRing K]

/-- The samples passed to `train_approximator`. -/
def samples (data : List (Transition K)) : List (Vec K × Vec K) := data.map fun t => (t.x ++ t.u, t.next)

theorem loss_of_residual (F : Fit K) (phi : Vec K → Vec K) (data : List (Transition K)) (pred : Vec K → Vec K → Vec K) (idx : List ℕ)
    (h : ∀ t ∈ data, F.residual phi (t.x ++ t.u, t.next) = idx.map fun i => (pred t.x t.u).getD i 0 - t.next.getD i 0) :
    F.loss phi (samples data) = predictionMse pred idx data := by
  have e : ((samples data).map fun d => F.residual phi d) = data.map fun t => idx.map fun i => (pred t.x t.u).getD i 0 - t.next.getD i 0 := by
    rw [samples, List.map_map]
    exact List.map_congr_left fun t ht => h t ht
  simp only [Fit.loss, predictionMse, meanSquare, e, pow_two]

theorem two {α : Type*} {l : List α} (h : l.length = 2) : ∃ a b, l = [a, b] := by
  match l, h with | [a, b], _ => exact ⟨a, b, rfl⟩
theorem three {α : Type*} {l : List α} (h : l.length = 3) : ∃ a b c, l = [a, b, c] := by
  match l, h with | [a, b, c], _ => exact ⟨a, b, c, rfl⟩
theorem one {α : Type*} {l : List α} (h : l.length = 1) : ∃ a, l = [a] := by
  match l, h with | [a], _ => exact ⟨a, rfl⟩
theorem four {α : Type*} {l : List α} (h : l.length = 4) : ∃ a b c d, l = [a, b, c, d] := by
  match l, h with | [a, b, c, d], _ => exact ⟨a, b, c, d, rfl⟩
theorem splitLen {α : Type*} {l : List α} {n m : ℕ} (h : l.length = n + m) : ∃ a b, a.length = n ∧ b.length = m ∧ l = a ++ b :=
  ⟨l.take n, l.drop n, by simp [h], by simp [h], (List.take_append_drop n l).symm⟩
theorem five {α : Type*} {l : List α} (h : l.length = 5) : ∃ a b c d e, l = [a, b, c, d, e] := by
  match l, h with | [a, b, c, d, e], _ => exact ⟨a, b, c, d, e, rfl⟩
theorem six {α : Type*} {l : List α} (h : l.length = 6) : ∃ a b c d e f, l = [a, b, c, d, e, f] := by
  match l, h with | [a, b, c, d, e, f], _ => exact ⟨a, b, c, d, e, f, rfl⟩

/-- **C121** (planar quadrotor, rocket). The loss is the mean squared error of the velocities predicted by the residual second-order system that is
verified, and the fitted function is zero at the equilibrium. -/
theorem C121_planar (S : SecondRelu K) (h : SecondRelu.Ok S 3 2) (hn : S.net.Ok 4) (hi : S.idx = [2, 5]) (he : S.qEq = zeros 3)
    (data : List (Transition K)) (hd : ∀ t ∈ data, t.Dims 6 2) :
    (∃ pred : Vec K → Vec K → Vec K, (∀ t ∈ data, S.stepRes t.x t.u = some (pred t.x t.u)) ∧
      (planarFit S.uEq).loss S.net.eval (samples data) = predictionMse pred [3, 4, 5] data) ∧
    (planarFit S.uEq).output S.net.eval ((planarFit S.uEq).input (zeros 6 ++ S.uEq)) = zeros 3 := by
  have hnq : S.nq = 3 := by simp [SecondRelu.nq, SecondRelu.nv, h.out, h.lo]
  have hnv : S.nv = 3 := h.out
  have hx : S.xEq = [0, 0, 0, 0, 0, 0] := by rw [SecondRelu.xEq, he, hnv]; rfl
  obtain ⟨v0, v1, hv⟩ := two h.ueq
  refine ⟨⟨fun x u => (S.stepRes x u).getD [], ?_, ?_⟩, ?_⟩
  · intro t ht
    obtain ⟨hx6, -, -⟩ := hd t ht
    simp [SecondRelu.stepRes, pick, hi, hx, hx6]
  · refine loss_of_residual _ _ _ _ _ fun t ht => ?_
    obtain ⟨hx6, hu2, hn6⟩ := hd t ht
    rcases t with ⟨x, u, xn⟩
    obtain ⟨x0, x1, x2, x3, x4, x5, rfl⟩ := six hx6
    obtain ⟨u0, u1, rfl⟩ := two hu2
    obtain ⟨n0, n1, n2, n3, n4, n5, rfl⟩ := six hn6
    obtain ⟨a0, a1, a2, ha⟩ := three ((net_len hn [x2, x5, u0, u1]).trans h.out)
    obtain ⟨b0, b1, b2, hb⟩ := three ((net_len hn [0, 0, v0, v1]).trans h.out)
    simp [SecondRelu.stepRes, pick, hi, hx, Fit.residual, planarFit, cols, ha, hb, hv, vsub, vadd, seg, hnq, vsmul]
    refine ⟨?_, ?_, ?_⟩ <;> ring
  · have : (planarFit S.uEq).input (zeros 6 ++ S.uEq) = [0, 0] ++ S.uEq := by simp [planarFit, cols, hv, zeros]
    rw [this]
    simp only [planarFit]
    rw [vsub_self, net_len hn, h.out]

/-- **C121** (pendulum). -/
theorem C121_pendulum (S : SecondRelu K) (h : SecondRelu.Ok S 1 1) (hn : S.net.Ok 3) (qe : K) (he : S.qEq = [qe]) (hu : S.uEq = [0])
    (data : List (Transition K)) (hd : ∀ t ∈ data, t.Dims 2 1) :
    (pendFit qe).loss S.net.eval (samples data) = predictionMse S.step [1] data ∧
    (pendFit qe).output S.net.eval ((pendFit qe).input ([qe, 0] ++ [0])) = [0] := by
  have hnq : S.nq = 1 := by simp [SecondRelu.nq, SecondRelu.nv, h.out, h.lo]
  have hnv : S.nv = 1 := h.out
  have hx : S.xEq = [qe, 0] := by rw [SecondRelu.xEq, he, hnv]; rfl
  constructor
  · refine loss_of_residual _ _ _ _ _ fun t ht => ?_
    obtain ⟨hx6, hu2, hn6⟩ := hd t ht
    rcases t with ⟨x, u, xn⟩
    obtain ⟨x0, x1, rfl⟩ := two hx6
    obtain ⟨u0, rfl⟩ := one hu2
    obtain ⟨n0, n1, rfl⟩ := two hn6
    obtain ⟨a0, ha⟩ := one ((net_len hn [x0, x1, u0]).trans h.out)
    obtain ⟨b0, hb⟩ := one ((net_len hn [qe, 0, 0]).trans h.out)
    simp [SecondRelu.step, hx, hu, Fit.residual, pendFit, ha, hb, vsub, vadd, hnq, vsmul]
  · simp only [pendFit]
    rw [vsub_self, net_len hn, h.out]; rfl

/-- **C121** (quadrotor). -/
theorem C121_quadrotor (S : ExSys K) (h : ExOk S 12 4 10 9) (hover : K) (hu : S.uEq = List.replicate 4 hover)
    (data : List (Transition K)) (hd : ∀ t ∈ data, t.Dims 12 4) :
    (quadFit hover).loss S.net.eval (samples data) = predictionMse S.quadStep [3, 4, 5, 6, 7, 8, 9, 10, 11] data ∧
    (quadFit hover).output S.net.eval ((quadFit hover).input (zeros 12 ++ S.uEq)) = zeros 9 := by
  constructor
  · refine loss_of_residual _ _ _ _ _ fun t ht => ?_
    obtain ⟨hx6, hu2, hn6⟩ := hd t ht
    rcases t with ⟨x, u, xn⟩
    obtain ⟨xa, xb, h1, h2, rfl⟩ := splitLen (n := 6) (m := 6) hx6
    obtain ⟨x0, x1, x2, x3, x4, x5, rfl⟩ := six h1
    obtain ⟨x6, x7, x8, x9, x10, x11, rfl⟩ := six h2
    obtain ⟨u0, u1, u2, u3, rfl⟩ := four hu2
    obtain ⟨na, nb, h3, h4, rfl⟩ := splitLen (n := 6) (m := 6) hn6
    obtain ⟨n0, n1, n2, n3, n4, n5, rfl⟩ := six h3
    obtain ⟨n6, n7, n8, n9, n10, n11, rfl⟩ := six h4
    obtain ⟨aa, ab, h5, h6, ha⟩ := splitLen (n := 6) (m := 3) (ex_len h [x3, x4, x5, x9, x10, x11, u0, u1, u2, u3])
    obtain ⟨a0, a1, a2, a3, a4, a5, rfl⟩ := six h5
    obtain ⟨a6, a7, a8, rfl⟩ := three h6
    obtain ⟨ba, bb, h7, h8, hb⟩ := splitLen (n := 6) (m := 3) (ex_len h [0, 0, 0, 0, 0, 0, hover, hover, hover, hover])
    obtain ⟨b0, b1, b2, b3, b4, b5, rfl⟩ := six h7
    obtain ⟨b6, b7, b8, rfl⟩ := three h8
    simp [ExSys.quadStep, Fit.residual, quadFit, hu, vsub, vadd, seg, vsmul, zeros, List.replicate] at ha hb ⊢
    simp [ha, hb]
    refine ⟨?_, ?_, ?_⟩ <;> ring
  · have : (quadFit hover).input (zeros 12 ++ S.uEq) = zeros 6 ++ vsmul hover (List.replicate 4 1) := by
      simp [quadFit, hu, seg, vsmul, zeros]
    rw [this]
    simp only [quadFit]
    rw [vsub_self, ex_len h]

/-- **C121** (quadrotor with Pixhawk). -/
theorem C121_pixhawk (S : ExSys K) (h : ExOk S 9 4 7 6) (hover : K) (hu : S.uEq = [0, 0, 0, hover])
    (data : List (Transition K)) (hd : ∀ t ∈ data, t.Dims 9 4) :
    (pixFit hover).loss S.net.eval (samples data) = predictionMse S.pixStep [6, 7, 8, 3, 4, 5] data ∧
    (pixFit hover).output S.net.eval ((pixFit hover).input (zeros 9 ++ S.uEq)) = zeros 6 := by
  constructor
  · refine loss_of_residual _ _ _ _ _ fun t ht => ?_
    obtain ⟨hx6, hu2, hn6⟩ := hd t ht
    rcases t with ⟨x, u, xn⟩
    obtain ⟨xa, xb, h1, h2, rfl⟩ := splitLen (n := 6) (m := 3) hx6
    obtain ⟨x0, x1, x2, x3, x4, x5, rfl⟩ := six h1
    obtain ⟨x6, x7, x8, rfl⟩ := three h2
    obtain ⟨u0, u1, u2, u3, rfl⟩ := four hu2
    obtain ⟨na, nb, h3, h4, rfl⟩ := splitLen (n := 6) (m := 3) hn6
    obtain ⟨n0, n1, n2, n3, n4, n5, rfl⟩ := six h3
    obtain ⟨n6, n7, n8, rfl⟩ := three h4
    obtain ⟨a0, a1, a2, a3, a4, a5, ha⟩ := six (ex_len h [x3, x4, x5, u0, u1, u2, u3])
    obtain ⟨b0, b1, b2, b3, b4, b5, hb⟩ := six (ex_len h [0, 0, 0, 0, 0, 0, hover])
    simp [ExSys.pixStep, Fit.residual, pixFit, hu, vsub, vadd, seg, vsmul, zeros, List.replicate, ha, hb]
    refine ⟨?_, ?_, ?_, ?_, ?_, ?_⟩ <;> ring
  · have : (pixFit hover).input (zeros 9 ++ S.uEq) = [0, 0, 0, 0, 0, 0, hover] := by
      simp [pixFit, hu, seg, zeros]
    rw [this]
    simp only [pixFit]
    rw [vsub_self, ex_len h]

/-- **C121** (pole). -/
theorem C121_pole (S : ExSys K) (h : ExOk S 7 3 7 5) (uz : K) (hu : S.uEq = [0, 0, uz])
    (data : List (Transition K)) (hd : ∀ t ∈ data, t.Dims 7 3) :
    (poleFit uz).loss S.net.eval (samples data) = predictionMse S.poleStep [2, 3, 4, 5, 6] data ∧
    (poleFit uz).output S.net.eval ((poleFit uz).input (zeros 7 ++ S.uEq)) = zeros 5 := by
  constructor
  · refine loss_of_residual _ _ _ _ _ fun t ht => ?_
    obtain ⟨hx6, hu2, hn6⟩ := hd t ht
    rcases t with ⟨x, u, xn⟩
    obtain ⟨xa, xb, h1, h2, rfl⟩ := splitLen (n := 6) (m := 1) hx6
    obtain ⟨x0, x1, x2, x3, x4, x5, rfl⟩ := six h1
    obtain ⟨x6, rfl⟩ := one h2
    obtain ⟨u0, u1, u2, rfl⟩ := three hu2
    obtain ⟨na, nb, h3, h4, rfl⟩ := splitLen (n := 6) (m := 1) hn6
    obtain ⟨n0, n1, n2, n3, n4, n5, rfl⟩ := six h3
    obtain ⟨n6, rfl⟩ := one h4
    obtain ⟨a0, a1, a2, a3, a4, ha⟩ := five (ex_len h [x0, x1, x5, x6, u0, u1, u2])
    obtain ⟨b0, b1, b2, b3, b4, hb⟩ := five (ex_len h [0, 0, 0, 0, 0, 0, uz])
    simp [ExSys.poleStep, Fit.residual, poleFit, hu, vsub, vadd, seg, vsmul, zeros, List.replicate, ha, hb]
    refine ⟨?_, ?_, ?_, ?_, ?_⟩ <;> ring
  · obtain ⟨b0, b1, b2, b3, b4, hb⟩ := five (ex_len h [0, 0, 0, 0, 0, 0, uz])
    simp [poleFit, hu, seg, zeros, List.replicate, vsub, vadd, hb]

/-- **C121** (unicycle). -/
theorem C121_unicycle (S : ExSys K) (flag : Bool) (h : ExOk S 3 2 (uniSize flag) 2)
    (data : List (Transition K)) (hd : ∀ t ∈ data, t.Dims 3 2) (hl : ∀ t ∈ data, inLimits S.uLo S.uUp t.u) :
    (∃ pred : Vec K → Vec K → Vec K, (∀ t ∈ data, S.zeroStep flag t.x t.u = some (pred t.x t.u)) ∧
      (uniFit flag).loss S.net.eval (samples data) = predictionMse pred [0, 1] data) ∧
    ∀ x θdot, x.length = 3 → (uniFit flag).output S.net.eval ((uniFit flag).input (x ++ [0, θdot])) = zeros 2 := by
  refine ⟨⟨fun x u => (S.zeroStep flag x u).getD [], ?_, ?_⟩, ?_⟩
  · intro t ht
    simp [ExSys.zeroStep, hl t ht]
  · refine loss_of_residual _ _ _ _ _ fun t ht => ?_
    obtain ⟨hx6, hu2, hn6⟩ := hd t ht
    have hlt := hl t ht
    rcases t with ⟨x, u, xn⟩
    obtain ⟨x0, x1, x2, rfl⟩ := three hx6
    obtain ⟨u0, u1, rfl⟩ := two hu2
    obtain ⟨n0, n1, n2, rfl⟩ := three hn6
    cases flag
    · obtain ⟨a0, a1, ha⟩ := two (ex_len h [x2, u0])
      obtain ⟨b0, b1, hb⟩ := two (ex_len h [x2, 0])
      simp [ExSys.zeroStep, hlt, Fit.residual, uniFit, uniIn, uniIn0, cols, vsub, vadd, seg, ha, hb]
      refine ⟨?_, ?_⟩ <;> ring
    · obtain ⟨a0, a1, ha⟩ := two (ex_len h [x2, u0, u1])
      obtain ⟨b0, b1, hb⟩ := two (ex_len h [x2, 0, u1])
      simp [ExSys.zeroStep, hlt, Fit.residual, uniFit, uniIn, uniIn0, cols, vsub, vadd, seg, ha, hb]
      refine ⟨?_, ?_⟩ <;> ring
  · intro x θdot hx
    obtain ⟨x0, x1, x2, rfl⟩ := three hx
    cases flag
    · simp [uniFit, cols, vsub_self, ex_len h]
    · simp [uniFit, cols, vsub_self, ex_len h]

/-- **C121** (car with acceleration). -/
theorem C121_car (S : ExSys K) (h : ExOk S 4 2 4 2) (data : List (Transition K)) (hd : ∀ t ∈ data, t.Dims 4 2) :
    (carFit (K := K)).loss S.net.eval (samples data) = predictionMse S.carStep [0, 1] data ∧
    (carFit (K := K)).output S.net.eval ((carFit (K := K)).input (zeros 4 ++ zeros 2)) = zeros 2 := by
  constructor
  · refine loss_of_residual _ _ _ _ _ fun t ht => ?_
    obtain ⟨hx6, hu2, hn6⟩ := hd t ht
    rcases t with ⟨x, u, xn⟩
    obtain ⟨x0, x1, x2, x3, rfl⟩ := four hx6
    obtain ⟨u0, u1, rfl⟩ := two hu2
    obtain ⟨n0, n1, n2, n3, rfl⟩ := four hn6
    obtain ⟨a0, a1, ha⟩ := two (ex_len h [x2, x3, u0, u1])
    obtain ⟨b0, b1, hb⟩ := two (ex_len h [0, 0, 0, 0])
    simp [ExSys.carStep, Fit.residual, carFit, cols, vsub, vadd, seg, zeros, List.replicate, ha, hb]
    refine ⟨?_, ?_⟩ <;> ring
  · have : (carFit (K := K)).input (zeros 4 ++ zeros 2) = zeros 4 := by simp [carFit, cols, zeros]
    rw [this]
    simp only [carFit]
    rw [vsub_self, ex_len h]

/-- **C121** (pendulum in continuous time). The data are derivatives of the state. -/
theorem C121_pendulum_continuous (S : ExSys K) (h : ExOk S 2 1 3 1) (qe : K) (hu : S.uEq = [0])
    (data : List (Transition K)) (hd : ∀ t ∈ data, t.Dims 2 1) :
    (pendContFit qe).loss S.net.eval (samples data) = predictionMse (S.pendStep [qe, 0]) [1] data ∧
    (pendContFit qe).output S.net.eval ((pendContFit qe).input ([qe, 0] ++ [0])) = [0] := by
  constructor
  · refine loss_of_residual _ _ _ _ _ fun t ht => ?_
    obtain ⟨hx6, hu2, hn6⟩ := hd t ht
    rcases t with ⟨x, u, xn⟩
    obtain ⟨x0, x1, rfl⟩ := two hx6
    obtain ⟨u0, rfl⟩ := one hu2
    obtain ⟨n0, n1, rfl⟩ := two hn6
    obtain ⟨a0, ha⟩ := one (ex_len h [x0, x1, u0])
    obtain ⟨b0, hb⟩ := one (ex_len h [qe, 0, 0])
    simp [ExSys.pendStep, hu, Fit.residual, pendContFit, ha, hb, vsub]
  · obtain ⟨b0, hb⟩ := one (ex_len h [qe, 0, 0])
    simp [pendContFit, hb, vsub]

/-- **C121** (planar quadrotor in continuous time). -/
theorem C121_planar_continuous (S : ExSys K) (h : ExOk S 6 2 3 3) (data : List (Transition K)) (hd : ∀ t ∈ data, t.Dims 6 2) :
    (planarContFit S.uEq).loss S.net.eval (samples data) = predictionMse S.quad2Step [3, 4, 5] data ∧
    (planarContFit S.uEq).output S.net.eval ((planarContFit S.uEq).input (zeros 6 ++ S.uEq)) = zeros 3 := by
  obtain ⟨v0, v1, hv⟩ := two h.ueq
  constructor
  · refine loss_of_residual _ _ _ _ _ fun t ht => ?_
    obtain ⟨hx6, hu2, hn6⟩ := hd t ht
    rcases t with ⟨x, u, xn⟩
    obtain ⟨x0, x1, x2, x3, x4, x5, rfl⟩ := six hx6
    obtain ⟨u0, u1, rfl⟩ := two hu2
    obtain ⟨n0, n1, n2, n3, n4, n5, rfl⟩ := six hn6
    obtain ⟨a0, a1, a2, ha⟩ := three (ex_len h [x2, u0, u1])
    obtain ⟨b0, b1, b2, hb⟩ := three (ex_len h [0, v0, v1])
    simp [ExSys.quad2Step, Fit.residual, planarContFit, ha, hb, hv, vsub, seg]
  · obtain ⟨b0, b1, b2, hb⟩ := three (ex_len h [0, v0, v1])
    simp [planarContFit, hv, hb, vsub, seg, zeros, List.replicate]

/-- **C121** (control-affine systems). Whatever the networks are, the fitted derivative is zero at the equilibrium. -/
theorem C121_affine_equilibrium (f G : Vec K → Vec K) (xe ue : Vec K) (hf : (f xe).length = xe.length) :
    affineFitDot f G xe ue (xe ++ ue) = zeros xe.length := by
  have hr : (matVec (reshapeRows xe.length ue.length (G xe)) ue).length = xe.length := by simp [reshapeRows]
  simp only [affineFitDot, List.take_left, List.drop_left]
  refine vec_ext (by simp [hf, hr]) fun i hi => ?_
  rw [getD_vsub _ _ _ (by simp [hf, hr]), getD_vsub _ _ _ (by simp [hf, hr]), getD_vadd _ _ _ (by simp [hf, hr])]
  simp

/-- **C121** (control-affine systems). Within the input limits the fitted derivative is that of the control-affine system with
`f(x) = ϕ_f(x) - ϕ_f(x*) - ϕ_G(x*) u*` and `G = ϕ_G`. -/
theorem C121_affine (f G : Vec K → Vec K) (xe ue uLo uUp x u : Vec K) (hf : ∀ x, (f x).length = xe.length) (hx : x.length = xe.length)
    (hu : InBox uLo uUp u) :
    affineFitDot f G xe ue (x ++ u) =
      affineDynamics (fun x => vsub (vsub (f x) (f xe)) (matVec (reshapeRows xe.length ue.length (G xe)) ue))
        (fun x => reshapeRows xe.length ue.length (G x)) uLo uUp x u := by
  have hr : ∀ w : Vec K, ∀ z, (matVec (reshapeRows xe.length ue.length (G z)) w).length = xe.length := by simp [reshapeRows]
  have hc : clampVec uLo uUp u = u := by
    obtain ⟨h1, h2, h3⟩ := hu
    have hl : (clampVec uLo uUp u).length = u.length := by simp [clampVec, ← h1, ← h2]
    refine vec_ext hl fun i hi => ?_
    rw [hl] at hi
    have h1i : i < uLo.length := by omega
    have h2i : i < uUp.length := by omega
    have := h3 i hi
    simp only [getD_of_lt _ _ hi, getD_of_lt _ _ h1i, getD_of_lt _ _ h2i] at this
    rw [getD_of_lt _ _ (by omega), getD_of_lt _ _ hi]
    simp [clampVec, this.1, this.2]
  simp only [affineFitDot, affineDynamics, hc]
  rw [← hx, List.take_left, List.drop_left, hx]
  refine vec_ext (by simp [hf, hr]) fun i hi => ?_
  rw [getD_vsub _ _ _ (by simp [hf, hr]), getD_vsub _ _ _ (by simp [hf, hr]), getD_vadd _ _ _ (by simp [hf, hr]),
    getD_vadd _ _ _ (by simp [hf, hr]), getD_vsub _ _ _ (by simp [hf, hr]), getD_vsub _ _ _ (by simp [hf, hr])]
  ring

/-- **C121** (controllers). What is applied by `FeedbackSystem` is what was fitted, within the input limits; at the equilibrium it is `u*`. -/
theorem C121_controller (S : Feedback K) (x : Vec K) :
    S.computeU x = List.zipWith max (List.zipWith min ((ctrlFit S.xEq S.uEq S.ctrl.eval x).map Ext.fin) S.uUpper) S.uLower ∧
    (S.uEq.length = (S.ctrl.eval S.xEq).length → ctrlFit S.xEq S.uEq S.ctrl.eval S.xEq = S.uEq) := by
  refine ⟨rfl, fun h => ?_⟩
  rw [ctrlFit, vsub_self, zeros_vadd _ _ h]

/-- **C121** (controllers). The same for the unicycle. -/
theorem C121_unicycle_controller (U : UniFeedback K) (hout : ∀ x, (U.fb.ctrl.eval x).length = 2) (x : Vec K) :
    U.computeU x = List.zipWith max (List.zipWith min ((uniCtrlFit U.lam U.R U.fb.ctrl.eval x).map Ext.fin) U.fb.uUpper) U.fb.uLower := by
  obtain ⟨a0, a1, ha⟩ := two (hout x)
  obtain ⟨b0, b1, hb⟩ := two (hout [0, 0, 0])
  simp [uniCtrlFit, UniFeedback.computeU, UniFeedback.preSat, ha, hb, vadd, vsub, vsmul, zeros, List.replicate, seg]

/-- **C121** (values). What is fitted to the costs is the candidate Lyapunov function, in the pendulum example with the identity as `R`. -/
theorem C121_value (net : Net K) (R : Mat K) (lam : K) (xe x : Vec K) (hout : ∀ x, (net.eval x).length = 1) :
    valueFit R lam xe net.eval x = [lyapV net R lam xe x] := by
  obtain ⟨a0, ha⟩ := one (hout x)
  obtain ⟨b0, hb⟩ := one (hout xe)
  simp [valueFit, lyapV, Net.val, err, norm1, ha, hb, vadd, vsub]

/-- **C121** (values). -/
theorem C121_pendulum_cost (net : Net K) (lam : K) (xe x : Vec K) (hout : ∀ x, (net.eval x).length = 1) (hl : x.length = xe.length) :
    pendCostFit lam xe net.eval x = [lyapV net (eye x.length) lam xe x] := by
  obtain ⟨a0, ha⟩ := one (hout x)
  obtain ⟨b0, hb⟩ := one (hout xe)
  have hI : matVec (eye x.length) (vsub x xe) = vsub x xe := by
    refine vec_ext (by simp [hl]) fun i hi => ?_
    have hi' : i < x.length := by simpa using hi
    have hv : x.length = (vsub x xe).length := by simp [hl]
    simp only [matVec, eye, List.map_map, List.getD_eq_getElem?_getD, List.getElem?_map, List.getElem?_range hi', Option.map_some,
      Option.getD_some, Function.comp_apply]
    rw [dot_eyeRow _ _ _ hi', List.getD_eq_getElem?_getD]
  simp [pendCostFit, lyapV, Net.val, err, norm1, ha, hb, vadd, hI]
  simp [vsub]

/-! ## train_approximator -/

theorem batchesOf_flatten {D : Type*} (b : ℕ) (hb : b ≠ 0) : ∀ (fuel : ℕ) (l : List D), l.length ≤ fuel → (batchesOf b fuel l).flatten = l
  | 0, l, h => by have : l = [] := List.length_eq_zero_iff.1 (by omega); subst this; rfl
  | fuel + 1, [], _ => rfl
  | fuel + 1, d :: ds, h => by
    have hl : ((d :: ds).drop b).length ≤ fuel := by simp at h ⊢; omega
    rw [batchesOf, List.flatten_cons, batchesOf_flatten b hb fuel _ hl, List.take_append_drop]

theorem batchesOf_size {D : Type*} (b : ℕ) (hb : b ≠ 0) : ∀ (fuel : ℕ) (l : List D), l.length ≤ fuel →
    (∀ B ∈ batchesOf b fuel l, B ≠ [] ∧ B.length ≤ b) ∧ ∀ B ∈ (batchesOf b fuel l).dropLast, B.length = b
  | 0, l, h => by simp [batchesOf]
  | fuel + 1, [], _ => by simp [batchesOf]
  | fuel + 1, d :: ds, h => by
    have hl : ((d :: ds).drop b).length ≤ fuel := by simp at h ⊢; omega
    obtain ⟨h1, h2⟩ := batchesOf_size b hb fuel _ hl
    rw [batchesOf]
    constructor
    · intro B hB
      rcases List.mem_cons.1 hB with rfl | hB
      · refine ⟨?_, by simp⟩
        intro h0
        have := congrArg List.length h0
        simp at this; omega
      · exact h1 B hB
    · intro B hB
      by_cases h0 : batchesOf b fuel ((d :: ds).drop b) = []
      · rw [h0] at hB; simp at hB
      · rw [List.dropLast_cons_of_ne_nil h0] at hB
        rcases List.mem_cons.1 hB with rfl | hB
        · have : (d :: ds).drop b ≠ [] := by
            intro he; rw [he] at h0
            cases fuel <;> exact h0 rfl
          have := List.length_pos_iff.2 this
          simp only [List.length_drop] at this
          rw [List.length_take]; omega
        · exact h2 B hB

theorem approx_fold {D P : Type*} (step : P → List D → P) (b : ℕ) (order : ℕ → List D) (p : P) (n : ℕ) :
    (List.range n).foldl (fun (s : P × List P) i => (approxEpoch step b s.1 (order i), s.2 ++ [approxEpoch step b s.1 (order i)])) (p, []) =
      (((List.range n).flatMap fun i => batchesOf b (order i).length (order i)).foldl step p,
        (List.range n).map fun k => ((List.range (k + 1)).flatMap fun i => batchesOf b (order i).length (order i)).foldl step p) := by
  induction n with
  | zero => rfl
  | succ n ih =>
    rw [List.range_succ, List.foldl_append, ih]
    simp only [List.foldl_cons, List.foldl_nil, approxEpoch]
    rw [List.map_append, List.flatMap_append, List.foldl_append]
    simp [List.range_succ, List.flatMap_append, List.foldl_append]

/-- **C121** (training). For at least two samples and a positive batch size, whatever the random choices are, the data are divided into a training set of
⌊0.8 n⌋ samples and a test set, and the parameters are the result of one step for each of the batches of all epochs: each epoch uses every training
sample exactly once, in batches of the given size (the last one may be smaller). -/
theorem C121_training {D P : Type*} (step : P → List D → P) (perm : List D → List D) (shuffle : ℕ → List D → List D) (b epochs : ℕ) (p : P)
    (dataset : List D) (hperm : (perm dataset).Perm dataset) (hsh : ∀ i l, (shuffle i l).Perm l) (hb : b ≠ 0) (hn : 2 ≤ dataset.length) :
    ∃ (train test : List D) (B : ℕ → List (List D)), (train ++ test).Perm dataset ∧ train.length = dataset.length * 8 / 10 ∧
      (∀ i, (B i).flatten.Perm train ∧ (∀ c ∈ B i, c ≠ [] ∧ c.length ≤ b) ∧ ∀ c ∈ (B i).dropLast, c.length = b) ∧
      trainApproximator step perm shuffle b epochs p dataset = some (((List.range epochs).flatMap B).foldl step p,
        (List.range epochs).map fun k => ((List.range (k + 1)).flatMap B).foldl step p) := by
  have hlen : ((perm dataset).take (trainSize dataset.length)).length = dataset.length * 8 / 10 := by
    rw [List.length_take, hperm.length_eq, trainSize]; omega
  refine ⟨(perm dataset).take (trainSize dataset.length), (perm dataset).drop (trainSize dataset.length),
    fun i => batchesOf b (shuffle i ((perm dataset).take (trainSize dataset.length))).length (shuffle i ((perm dataset).take (trainSize dataset.length))),
    by rw [List.take_append_drop]; exact hperm, hlen, fun i => ⟨?_, batchesOf_size b hb _ _ le_rfl⟩, ?_⟩
  · rw [batchesOf_flatten b hb _ _ le_rfl]; exact hsh _ _
  · have hne : ¬((perm dataset).take (trainSize dataset.length) = [] ∨ b = 0) := by
      rintro (h | h)
      · rw [h] at hlen; simp only [List.length_nil] at hlen; omega
      · exact hb h
    simp only [trainApproximator, if_neg hne]
    rw [approx_fold step b (fun i => shuffle i ((perm dataset).take (trainSize dataset.length)))]

/-- **C121** (training, too few data). With fewer than two samples it raises. -/
theorem C121_training_raises {D P : Type*} (step : P → List D → P) (perm : List D → List D) (shuffle : ℕ → List D → List D) (b epochs : ℕ) (p : P)
    (dataset : List D) (hn : dataset.length < 2) : trainApproximator step perm shuffle b epochs p dataset = none := by
  have h0 : trainSize dataset.length = 0 := by unfold trainSize; omega
  simp [trainApproximator, h0]

/-! ## Examples -/

/-- The planar quadrotor with the network of the other examples. -/
def exPlanar : SecondRelu ℚ :=
  { xLo := List.replicate 6 (-1), xUp := List.replicate 6 1, uLo := [0, 0], uUp := [4, 4], net := exNetP 4 3, qEq := zeros 3, uEq := [2, 2],
    dt := 1 / 10, idx := [2, 5] }

example : SecondRelu.Ok exPlanar 3 2 ∧ exPlanar.net.Ok 4 ∧ exPlanar.idx = [2, 5] ∧ exPlanar.qEq = zeros 3 :=
  ⟨⟨rfl, rfl, rfl, by decide, rfl, rfl, rfl, rfl⟩, (exSysP_ok 6 2 4 3).net, rfl, rfl⟩

/-- Two transitions with an error that is not zero. -/
def exData : List (Transition ℚ) := [⟨[0, 0, 1, 0, 0, 0], [2, 2], [0, 0, 1, 0, 0, 0]⟩, ⟨[1, 1, 0, 1, 1, 1], [1, 3], [1, 1, 0, 1, 0, 0]⟩]

example : ∀ t ∈ exData, t.Dims 6 2 := by
  intro t ht
  simp only [exData, List.mem_cons, List.not_mem_nil, or_false] at ht
  rcases ht with rfl | rfl <;> exact ⟨rfl, rfl, rfl⟩
example : (planarFit exPlanar.uEq).loss exPlanar.net.eval (samples exData) ≠ 0 := by decide +kernel

example : ExOk (exSysP 12 4 10 9) 12 4 10 9 ∧ (exSysP 12 4 10 9).uEq = List.replicate 4 (1 / 2) := ⟨exSysP_ok 12 4 10 9, rfl⟩
example : ExOk (exSysP 3 2 (uniSize true) 2) 3 2 (uniSize true) 2 ∧ inLimits (exSysP 3 2 3 2).uLo (exSysP 3 2 3 2).uUp [1, -1] :=
  ⟨exSysP_ok 3 2 3 2, by decide⟩
example : ExOk { exSysP 7 3 7 5 with uEq := [0, 0, 5] } 7 3 7 5 :=
  let h := exSysP_ok 7 3 7 5
  ⟨h.lo, h.up, h.le, h.ulo, h.uup, rfl, h.net, h.out, h.hidden⟩

/-- Five samples in reverse order: four are used, in batches of three. -/
example : trainApproximator (fun (p : List (List ℕ)) B => p ++ [B]) List.reverse (fun i l => l.rotate i) 3 2 [] [1, 2, 3, 4, 5] =
    some ([[5, 4, 3], [2], [4, 3, 2], [5]], [[[5, 4, 3], [2]], [[5, 4, 3], [2], [4, 3, 2], [5]]]) := by decide

end NNL.Props
