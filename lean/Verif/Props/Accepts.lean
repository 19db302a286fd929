import Verif.Props.ContinuousRate
import Verif.Lemmas.ExampleSystems
import Verif.Props.MaxBox
import Verif.Props.Network

/-!
C10, C12, C21, C22, C29: the inputs for which the functions return.
-/

set_option linter.unusedSectionVars false

namespace NNL.Props

open NNL NNL.Model NNL.Spec

variable {K : Type*} [Field K] [LinearOrder K] [IsStrictOrderedRing K]

/-- **C10**: `box_boundary` returns for any two bounds of the same size. -/
theorem C10_accepts (lo up : Vec K) : (boxBoundary lo up).isSome ↔ up.length = lo.length := by
  simp only [boxBoundary]
  split_ifs with h <;> simp [h]

/-- **C12**: `output_constraint` returns for every method and every ordered box, if there is a hidden layer. -/
theorem C12_returns (method : Method K) {net : Net K} {n : ℕ} (hok : net.Ok n) (hne : net.hidden ≠ [])
    {lo up : Vec K} (h1 : lo.length = n) (h2 : up.length = n) (hb : ∀ i, i < n → lo.getD i 0 ≤ up.getD i 0) :
    ∃ r, outputConstraint net n lo up method = some r :=
  outputConstraint_isSome method hok hne h1 h2 hb

theorem wz_slopes : ∀ (hs : List (Lin K × Act K)) (lo up : Vec K), (wzBoundsIA hs lo up).isSome →
    ∀ q ∈ hs, q.1.W ≠ [] → ∀ c, q.2 = .leaky c → 0 ≤ c
  | [], _, _, _, q, hq, _, _, _ => by cases hq
  | (l, a) :: hs, lo, up, h, q, hq, hW, c, hc => by
    obtain ⟨bs, hbs⟩ := Option.isSome_iff_exists.1 h
    simp only [wzBoundsIA, Option.bind_eq_some_iff, Option.map_eq_some_iff] at hbs
    obtain ⟨zn, hzn, r, hr, -⟩ := hbs
    rcases List.mem_cons.1 hq with rfl | hq
    · simp only at hW hc
      subst hc
      obtain ⟨w, ws, e⟩ := List.exists_cons_of_ne_nil hW
      by_contra hneg
      have := collect_eq _ _ hzn
      rw [e] at this
      simp only [List.map_cons, zNext] at this
      rw [if_neg (by simpa using hneg)] at this
      cases zn <;> simp at this
    · exact wz_slopes hs _ _ (by rw [hr]; rfl) q hq hW c hc

/-- **C21**: `output_gradient_times_vector` returns, for an ordered box of the size of the input, exactly for networks
with a hidden layer and without negative slopes. -/
theorem C21_accepts {net : Net K} {n : ℕ} (hok : net.Ok n) (hw : ∀ q ∈ net.hidden, q.1.W ≠ []) (lo up : Vec K)
    (hle : ∀ i, i < n → lo.getD i 0 ≤ up.getD i 0) :
    (gradTimesVec net n lo up).isSome ↔ lo.length = n ∧ up.length = n ∧ net.hidden ≠ [] ∧
      ∀ q ∈ net.hidden, ∀ c, q.2 = .leaky c → 0 ≤ c := by
  unfold gradTimesVec
  constructor
  · intro h
    split_ifs at h with hl
    · obtain ⟨c, hc⟩ := Option.isSome_iff_exists.1 h
      obtain ⟨wz, hwz, hc⟩ := Option.bind_eq_some_iff.1 hc
      refine ⟨hl.1, hl.2, ?_, fun q hq => wz_slopes _ _ _ (by rw [hwz]; rfl) q hq (hw q hq)⟩
      intro e
      simp [gradTimesVecBounds, e] at hc
    · cases h
  · rintro ⟨h1, h2, h3, h4⟩
    rw [if_pos ⟨h1, h2⟩]
    obtain ⟨bs, b1, -, b3⟩ := wz_ia net.hidden n lo up hok.1 h1 h2 hle h4
    rw [b1]
    obtain ⟨rows, hr⟩ := b3 n (numUnits net.hidden) true 0 0
    simp only [Option.bind_some, gradTimesVecBounds, hr]
    cases hh : net.hidden with
    | nil => exact absurd hh h3
    | cons q qs => rfl

/-- **C22**: `relu_network_gradient` returns for every point of the right size and every tolerance that is not negative. -/
theorem C22_accepts (net : Net K) (n : ℕ) (x : Vec K) (tol : K) :
    (reluNetworkGradient tol net n x).isSome ↔ x.length = n ∧ 0 ≤ tol := by
  unfold reluNetworkGradient
  split_ifs with h <;> simpa using h

/-- **C29**: `add_mixed_integer_linear_constraints` returns for every set whose matrices and bounds fit together, whose
slacks and binaries all occur in a row or have bounds, and whose blocks of rows have a matrix. -/
theorem C29_accepts (m : Mip K) (hw : m.WF) (c : MIC K) (input : List ℕ) (out : Option (List ℕ)) (hc : c.Ready input.length)
    (hi : ∀ i ∈ input, i < m.n) (ho : ∀ o, out = some o → o.length = c.numOut ∧ ∀ i ∈ o, i < m.n) :
    ∃ m' s z, m.addMIC c input out .fresh .binary = some (m', s, z) := by
  obtain ⟨⟨m', s, z⟩, h⟩ := addMIC_isSome m hw c input out .binary (by simp) hc hi ho
  exact ⟨m', s, z, h⟩

/-- A leaky unit: accepted for the slope 1/2 and refused for -1/2. -/
example : (gradTimesVec (⟨[(⟨1, [[2]], none⟩, .leaky (1 / 2))], ⟨1, [[1]], none⟩⟩ : Net ℚ) 1 [-1] [1]).isSome ∧
    ¬ (gradTimesVec (⟨[(⟨1, [[2]], none⟩, .leaky (-1 / 2))], ⟨1, [[1]], none⟩⟩ : Net ℚ) 1 [-1] [1]).isSome := by
  decide +kernel

end NNL.Props
