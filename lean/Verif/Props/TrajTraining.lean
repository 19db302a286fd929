import Verif.Props.RrtPaths

/-!
# C94: the training set of `construct_training_set`
-/

namespace NNL.Props

open NNL.Model

theorem suffixSums_length : ∀ l : List ℝ, (suffixSums l).length = l.length
  | [] => rfl
  | a :: as => by simp [suffixSums, suffixSums_length as]

theorem suffixSums_getElem? : ∀ (l : List ℝ) (i : ℕ), i < l.length → (suffixSums l)[i]? = some (l.drop i).sum
  | [], i, h => by simp at h
  | a :: as, 0, _ => by simp [suffixSums]
  | a :: as, i + 1, h => by
    simp only [suffixSums, List.getElem?_cons_succ, List.drop_succ_cons]
    exact suffixSums_getElem? as i (by simpa using h)

/-- C94, the part that holds. For each solution the rows of its blocks of states and of controls are those of the trajectory
without the last one, and the entry of its block of costs at each of these rows is the sum of the squares of the controls from there
on. -/
theorem C94_rows_partial (sols : List (List (Fin 3 → ℝ) × List (Fin 2 → ℝ))) (k : ℕ) (x : List (Fin 3 → ℝ)) (u : List (Fin 2 → ℝ))
    (hk : sols[k]? = some (x, u)) (hl : x.length = u.length) :
    ∃ X U C, (trainingSet sols).1[k + 1]? = some X ∧ (trainingSet sols).2.1[k + 1]? = some U ∧
      (trainingSet sols).2.2[k + 1]? = some C ∧ X.length = U.length ∧ X.length + 1 = max 1 x.length ∧
      ∀ i < X.length, X[i]? = x[i]? ∧ U[i]? = u[i]? ∧ C[i]? = some ((u.drop i).map fun c => c 0 ^ 2 + c 1 ^ 2).sum := by
  refine ⟨x.dropLast, u.dropLast, suffixSums (costTrajectory u), by simp [trainingSet, hk], by simp [trainingSet, hk],
    by simp [trainingSet, hk], by simp [hl], by rw [List.length_dropLast]; omega, fun i hi => ?_⟩
  rw [List.length_dropLast] at hi
  refine ⟨?_, ?_, ?_⟩
  · rw [List.dropLast_eq_take, List.getElem?_take_of_lt hi]
  · rw [List.dropLast_eq_take, List.getElem?_take_of_lt (hl ▸ hi)]
  · rw [suffixSums_getElem? _ _ (by simp [costTrajectory]; omega), costTrajectory, List.map_drop]

/-- C94 is false: for each solution there is one row of costs more than rows of states, so that after concatenation the costs of
all further solutions are assigned to the wrong states. -/
theorem C94_misaligned (sols : List (List (Fin 3 → ℝ) × List (Fin 2 → ℝ))) (hl : ∀ s ∈ sols, s.1.length = s.2.length)
    (hpos : ∀ s ∈ sols, s.1 ≠ []) :
    ((trainingSet sols).2.2.flatten).length = ((trainingSet sols).1.flatten).length + sols.length := by
  simp only [trainingSet, List.flatten_cons, List.length_append, List.length_singleton]
  rw [add_assoc]
  congr 1
  induction sols with
  | nil => rfl
  | cons s sols ih =>
    have := ih (fun s' h => hl s' (by simp [h])) (fun s' h => hpos s' (by simp [h]))
    have hc : (costTrajectory s.2).length = s.2.length := by simp [costTrajectory]
    simp only [List.map_cons, List.flatten_cons, List.length_append, List.length_cons, this, suffixSums_length, hc,
      List.length_dropLast]
    have h1 := hl s (by simp)
    have h2 := List.length_pos_of_ne_nil (hpos s (by simp))
    omega

/-- C94 is false: with two solutions, the row of the concatenated costs at the first state of the second solution is the cost at the
end of the first one. -/
theorem C94_shifted (x1 x2 : List (Fin 3 → ℝ)) (u1 u2 : List (Fin 2 → ℝ)) (c : Fin 2 → ℝ) (h1 : x1.length = u1.length + 1)
    (h2 : 2 ≤ x2.length) :
    ((trainingSet [(x1, u1 ++ [c]), (x2, u2)]).1.flatten)[x1.length]? = x2.head? ∧
    ((trainingSet [(x1, u1 ++ [c]), (x2, u2)]).2.2.flatten)[x1.length]? = some (c 0 ^ 2 + c 1 ^ 2) := by
  constructor
  · simp only [trainingSet, List.map_cons, List.map_nil, List.flatten_cons, List.flatten_nil, List.append_nil,
      List.singleton_append]
    rw [h1, List.getElem?_cons_succ, List.getElem?_append_right (by simp [h1])]
    simp only [List.length_dropLast, h1, Nat.add_sub_cancel, Nat.sub_self]
    rw [List.dropLast_eq_take, List.getElem?_take_of_lt (by omega), List.head?_eq_getElem?]
  · simp only [trainingSet, List.map_cons, List.map_nil, List.flatten_cons, List.flatten_nil, List.append_nil,
      List.singleton_append]
    rw [h1, List.getElem?_cons_succ, List.getElem?_append_left (by simp [suffixSums_length, costTrajectory]),
      suffixSums_getElem? _ _ (by simp [costTrajectory])]
    simp [costTrajectory]

/-! ## The hypotheses are met: the straight path of `StraightSolver`, four columns -/

example : ∀ s ∈ [([![-0.06, 0, 0], ![-0.04, 0, 0], ![-0.02, 0, 0], ![0, 0, 0]], List.replicate 4 ![(1 : ℝ), 0]),
    ([![-0.12, 0, 0], ![-0.08, 0, 0], ![-0.04, 0, 0], ![(0 : ℝ), 0, 0]], List.replicate 4 ![(2 : ℝ), 0])],
    s.1.length = s.2.length ∧ s.1 ≠ [] := by
  simp

end NNL.Props
