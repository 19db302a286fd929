import Verif.Model.Latent
import Mathlib.Tactic.Linarith
import Mathlib.Tactic.Positivity
import Mathlib.Tactic.LinearCombination
import Mathlib.Analysis.SpecialFunctions.Log.Deriv
import Mathlib.Analysis.Complex.ExponentialBounds

/-!
C116: rollouts of the latent dynamics.
-/

namespace NNL.Props

open NNL NNL.Model

variable {I Z Eps K : Type}

/-- **C116** (rollout). Without `decode_intermediate` the latent states are the trajectory of the latent system from the encoded image, `V_traj` its
values, and `x_traj` the two given images followed by the decoded ones. -/
theorem C116_rollout (L : LatentNet I Z Eps K) (e : ℕ → Eps) (x : I × I) (N : ℕ) :
    L.rollout false e x N = some
      ([x.1, x.2] ++ (List.range N).map (fun n => (L.dec (L.step^[n + 1] (L.enc x).1)).2),
        (List.range (N + 1)).map (fun n => L.V (L.step^[n] (L.enc x).1)),
        (List.range (N + 1)).map (fun n => L.step^[n] (L.enc x).1)) := by
  unfold LatentNet.rollout
  induction N with
  | zero => rfl
  | succ N ih =>
    rw [List.range_succ, List.foldlM_append, ih, Option.bind_eq_bind, Option.bind_some, List.foldlM_cons]
    have hl : ((List.range (N + 1)).map fun n => L.step^[n] (L.enc x).1).getLast? = some (L.step^[N] (L.enc x).1) := by
      rw [List.range_succ, List.map_append]; simp
    simp only [LatentNet.rolloutStep, Bool.false_eq_true, if_false, hl, Option.bind_eq_bind, Option.bind_some, List.foldlM_nil]
    rw [← Function.iterate_succ_apply' L.step N, List.range_succ (n := N + 1), List.map_append, List.map_append, List.map_append]
    simp

/-- **C116** (decoding in between). With `decode_intermediate` every latent state is one step from the encoding of the last two images:
from the sample drawn around the mean with `use_variational`, otherwise from the mean. -/
theorem C116_decode (L : LatentNet I Z Eps K) (e : ℕ → Eps) (x : I × I) (N : ℕ) :
    ∃ xs vs zs, L.rollout true e x N = some (xs, vs, zs) ∧ xs.length = N + 2 ∧ zs.length = N + 1 ∧ vs = zs.map L.V ∧
      xs[0]? = some x.1 ∧ xs[1]? = some x.2 ∧ zs[0]? = some (L.enc x).1 ∧
      ∀ n < N, ∃ a b z, xs[n]? = some a ∧ xs[n + 1]? = some b ∧ zs[n + 1]? = some z ∧
        z = L.step (if L.variational then L.reparam (L.enc (a, b)).1 (L.enc (a, b)).2 (e n) else (L.enc (a, b)).1) ∧
        xs[n + 2]? = some (L.dec z).2 := by
  unfold LatentNet.rollout
  induction N with
  | zero => exact ⟨[x.1, x.2], [L.V (L.enc x).1], [(L.enc x).1], rfl, rfl, rfl, rfl, rfl, rfl, rfl, fun n hn => absurd hn (Nat.not_lt_zero n)⟩
  | succ N ih =>
    obtain ⟨xs, vs, zs, h1, h2, h3, h4, h5, h6, h7, h8⟩ := ih
    have ha : xs[N]? = some (xs[N]'(by omega)) := List.getElem?_eq_getElem _
    have hb : xs[N + 1]? = some (xs[N + 1]'(by omega)) := List.getElem?_eq_getElem _
    generalize xs[N]'(by omega) = a at ha
    generalize xs[N + 1]'(by omega) = b at hb
    refine ⟨xs ++ [(L.dec (L.step (L.latent (a, b) (e N)))).2], vs ++ [L.V (L.step (L.latent (a, b) (e N)))],
      zs ++ [L.step (L.latent (a, b) (e N))], ?_, by simp [h2], by simp [h3], by simp [h4], ?_, ?_, ?_, ?_⟩
    · rw [List.range_succ, List.foldlM_append, h1, Option.bind_eq_bind, Option.bind_some, List.foldlM_cons]
      simp [LatentNet.rolloutStep, ha, hb, LatentNet.vaeForward]
    · rw [List.getElem?_append_left (by omega)]; exact h5
    · rw [List.getElem?_append_left (by omega)]; exact h6
    · rw [List.getElem?_append_left (by omega)]; exact h7
    · intro n hn
      rcases Nat.lt_succ_iff_lt_or_eq.1 hn with hlt | rfl
      · obtain ⟨a', b', z, g1, g2, g3, g4, g5⟩ := h8 n hlt
        refine ⟨a', b', z, ?_, ?_, ?_, g4, ?_⟩
        · rw [List.getElem?_append_left (by omega)]; exact g1
        · rw [List.getElem?_append_left (by omega)]; exact g2
        · rw [List.getElem?_append_left (by omega)]; exact g3
        · rw [List.getElem?_append_left (by omega)]; exact g5
      · refine ⟨a, b, L.step (L.latent (a, b) (e n)), ?_, ?_, ?_, rfl, ?_⟩
        · rw [List.getElem?_append_left (by omega)]; exact ha
        · rw [List.getElem?_append_left (by omega)]; exact hb
        · rw [List.getElem?_append_right (by omega), h3]; simp
        · rw [List.getElem?_append_right (by omega), h2]; simp

/-- **C116** (decay). If the decrease is certified on a region and the latent trajectory stays there, the recorded values decay
exponentially. -/
theorem C116_decay [Field K] [LinearOrder K] [IsStrictOrderedRing K] (L : LatentNet I Z Eps K) (e : ℕ → Eps) (x : I × I) (N : ℕ)
    (Dom : Z → Prop) {ε : K} (hε : ε ≤ 1) (hdec : ∀ z, Dom z → Dom (L.step z) → L.V (L.step z) ≤ (1 - ε) * L.V z)
    {xs : List I} {vs : List K} {zs : List Z} (h : L.rollout false e x N = some (xs, vs, zs)) (hz : ∀ z ∈ zs, Dom z) (n : ℕ) (v0 v : K)
    (h0 : vs[0]? = some v0) (hv : vs[n]? = some v) : v ≤ (1 - ε) ^ n * v0 := by
  rw [C116_rollout] at h
  simp only [Option.some.injEq, Prod.mk.injEq] at h
  obtain ⟨-, rfl, rfl⟩ := h
  have hn : n < N + 1 := by
    have := (List.getElem?_eq_some_iff.1 hv).1
    simpa using this
  have e0 : v0 = L.V (L.enc x).1 := by simpa using h0.symm
  have ev : v = L.V (L.step^[n] (L.enc x).1) := by
    rw [List.getElem?_map, List.getElem?_range hn] at hv
    simpa using hv.symm
  have hd : ∀ m, m < N + 1 → Dom (L.step^[m] (L.enc x).1) := fun m hm => hz _ (List.mem_map.2 ⟨m, by simpa using hm, rfl⟩)
  subst e0 ev
  clear hv h0
  induction n with
  | zero => simp
  | succ n ih =>
    have h1 := hdec _ (hd n (by omega)) (by rw [← Function.iterate_succ_apply' L.step]; exact hd (n + 1) hn)
    rw [Function.iterate_succ_apply', pow_succ]
    have h2 := mul_le_mul_of_nonneg_left (ih (by omega)) (sub_nonneg.2 hε)
    calc _ ≤ _ := h1
      _ ≤ _ := h2
      _ = _ := by ring

/-- With `decode_intermediate` this fails: decoding and encoding may take the state back. -/
theorem C116_decode_counterexample : ∃ L : LatentNet ℚ ℚ Unit ℚ, (∀ z, L.V (L.step z) ≤ (1 - 1 / 2) * L.V z) ∧
    ∃ xs zs, L.rollout true (fun _ => ()) (1, 1) 2 = some (xs, [1, 1 / 2, 3 / 4], zs) := by
  refine ⟨⟨fun x => ((x.1 + x.2) / 2, 0), fun z => (z, 4 * z), fun z => z / 2, fun m _ _ => m, fun z => |z|, false⟩, ?_, ?_⟩
  · intro z
    simp only [abs_div]
    rw [abs_of_pos (show (0 : ℚ) < 2 by norm_num)]
    linarith
  · refine ⟨[1, 1, 2, 3], [1, 1 / 2, 3 / 4], ?_⟩
    decide +kernel

/-- **C116** (losses). The loss of a rollout has one entry per image; the first two are those of the given images with themselves. -/
theorem C116_loss (L : LatentNet I Z Eps K) (loss : I → I → K) (decode : Bool) (e : ℕ → Eps) (a b : I) (rest : List I) :
    ∃ ls, L.rolloutLoss loss decode e (a :: b :: rest) = some ls ∧ ls.length = rest.length + 2 ∧ ls[0]? = some (loss a a) ∧
      ls[1]? = some (loss b b) := by
  obtain ⟨xs, vs, zs, h1, h2, h3, h4⟩ : ∃ xs vs zs, L.rollout decode e (a, b) rest.length = some (xs, vs, zs) ∧ xs.length = rest.length + 2 ∧
      xs[0]? = some a ∧ xs[1]? = some b := by
    cases decode with
    | true =>
      obtain ⟨xs, vs, zs, h1, h2, -, -, h5, h6, -⟩ := C116_decode L e (a, b) rest.length
      exact ⟨xs, vs, zs, h1, h2, h5, h6⟩
    | false => exact ⟨_, _, _, C116_rollout L e (a, b) rest.length, by simp, by simp, by simp⟩
  refine ⟨List.zipWith loss (a :: b :: rest) xs, ?_, by simp [h2], ?_, ?_⟩
  · simp [LatentNet.rolloutLoss, h1]
  · simp [List.getElem?_zipWith, h3]
  · simp [List.getElem?_zipWith, h4]

/-! ## Binary cross entropy -/

theorem clampLog_eq {x : ℝ} (h : Real.exp (-100) ≤ x) : clampLog x = Real.log x := by
  have hx : 0 < x := (Real.exp_pos _).trans_le h
  rw [clampLog, if_neg (not_le.2 hx), max_eq_left]
  rwa [Real.le_log_iff_exp_le hx]

theorem log_term {t p : ℝ} (ht : 0 ≤ t) (hp : 0 < p) : t * Real.log p ≤ t * Real.log t + (p - t) ∧
    (p ≠ t → t * Real.log p < t * Real.log t + (p - t)) := by
  rcases eq_or_lt_of_le ht with rfl | h0
  · simp only [zero_mul, zero_add, sub_zero]
    exact ⟨hp.le, fun _ => hp⟩
  · have e : Real.log (p / t) = Real.log p - Real.log t := Real.log_div hp.ne' h0.ne'
    have hd : 0 < p / t := div_pos hp h0
    have hm : t * (p / t) = p := mul_div_cancel₀ p h0.ne'
    constructor
    · have := mul_le_mul_of_nonneg_left (Real.log_le_sub_one_of_pos hd) ht
      rw [e, mul_sub, mul_sub, hm] at this
      linarith
    · intro hne
      have hne' : p / t ≠ 1 := fun h => hne ((div_eq_one_iff_eq h0.ne').1 h)
      have := mul_lt_mul_of_pos_left (Real.log_lt_sub_one_of_pos hd hne') h0
      rw [e, mul_sub, mul_sub, hm] at this
      linarith

/-- **C116** (reconstruction with cross entropy). Among the predictions that are not clamped, the loss of `reconstruction_loss` has its only minimum
at the expected pixel. -/
theorem C116_recon_bce {t p : ℝ} (ht0 : Real.exp (-100) ≤ t) (ht1 : Real.exp (-100) ≤ 1 - t) (hp0 : Real.exp (-100) ≤ p)
    (hp1 : Real.exp (-100) ≤ 1 - p) (hne : p ≠ t) : reconBce t t < reconBce t p := by
  have he := Real.exp_pos (-100)
  unfold reconBce bce
  rw [clampLog_eq ht0, clampLog_eq ht1, clampLog_eq hp0, clampLog_eq hp1]
  have h1 := (log_term (he.le.trans ht0) (he.trans_le hp0)).2 hne
  have h2 := (log_term (he.le.trans ht1) (he.trans_le hp1)).1
  linarith

/-- **C116** (rollouts with cross entropy, contradicted). In `rollout_loss` the arguments are swapped: the loss is linear in the prediction, at the
pixel 1/2 it does not depend on it at all, and for a brighter pixel a white prediction has a smaller loss than the right one. -/
theorem C116_rollout_bce_counterexample : (∀ p, rolloutBce (1 / 2) p = Real.log 2) ∧
    ∀ t : ℝ, 1 / 2 < t → t < 1 → rolloutBce t 1 < rolloutBce t t := by
  have hhalf : clampLog (1 / 2) = -Real.log 2 := by
    rw [clampLog, if_neg (by norm_num), one_div, Real.log_inv, max_eq_left]
    linarith [Real.log_two_lt_d9]
  constructor
  · intro p
    unfold rolloutBce bce
    rw [show (1 : ℝ) - 1 / 2 = 1 / 2 by norm_num, hhalf]
    ring
  · intro t h1 h2
    have ht : clampLog t = Real.log t := by
      rw [clampLog, if_neg (by linarith), max_eq_left]
      have : Real.log (1 / 2) ≤ Real.log t := Real.log_le_log (by norm_num) h1.le
      rw [one_div, Real.log_inv] at this
      linarith [Real.log_two_lt_d9]
    have hlt : clampLog (1 - t) < Real.log t := by
      have h3 : -100 < Real.log t := by
        have : Real.log (1 / 2) ≤ Real.log t := Real.log_le_log (by norm_num) h1.le
        rw [one_div, Real.log_inv] at this
        linarith [Real.log_two_lt_d9]
      rw [clampLog, if_neg (by linarith)]
      exact max_lt (Real.log_lt_log (by linarith) (by linarith)) h3
    unfold rolloutBce bce
    rw [ht]
    nlinarith [mul_pos (sub_pos.2 h2) (sub_pos.2 hlt)]

/-! ## An example -/

/-- A latent system: a state is the mean of the two blocks, and halves at every step. -/
def exLatent : LatentNet ℚ ℚ Unit ℚ := ⟨fun x => ((x.1 + x.2) / 2, 0), fun z => (z, z), fun z => z / 2, fun m _ _ => m, fun z => |z|, false⟩

example : exLatent.rollout false (fun _ => ()) (1, 3) 2 = some ([1, 3, 1, 1 / 2], [2, 1, 1 / 2], [2, 1, 1 / 2]) := by decide +kernel
example : exLatent.rollout true (fun _ => ()) (1, 3) 2 = some ([1, 3, 1, 1], [2, 1, 1], [2, 1, 1]) := by decide +kernel
example : exLatent.rolloutLoss (fun a b => (a - b) ^ 2) false (fun _ => ()) [1, 3, 2, 1] = some [0, 0, 1, 1 / 4] := by decide +kernel

/-- The hypotheses of `C116_decay`. -/
example : ∀ z, exLatent.V (exLatent.step z) ≤ (1 - 1 / 2) * exLatent.V z := by
  intro z
  simp only [exLatent, abs_div]
  rw [abs_of_pos (show (0 : ℚ) < 2 by norm_num)]
  linarith

/-- The hypotheses of `C116_recon_bce`. -/
example : reconBce (1 / 2) (1 / 2) < reconBce (1 / 2) (1 / 4) := by
  have h : Real.exp (-100) ≤ 1 / 4 := by
    have h1 := Real.add_one_le_exp (100 : ℝ)
    rw [Real.exp_neg, inv_le_comm₀ (Real.exp_pos _) (by norm_num)]
    linarith
  exact C116_recon_bce (by linarith) (by linarith) h (by linarith) (by norm_num)

end NNL.Props
