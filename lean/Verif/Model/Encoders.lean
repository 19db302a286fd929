import Verif.Model.Mic

/-!
# Constraint-set encoders of `utils.py`: absolute value, maximum, box boundary
-/

namespace NNL.Model

open NNL

variable {K : Type*} [Field K] [LinearOrder K]

/-- A column vector `torch.tensor([[a], [b], ...])`. -/
def colT (v : Vec K) : Tensor2 K := ⟨1, v.map fun a => [a]⟩

/-- Finite bounds. -/
def finBound (v : Vec K) : Option (List (Option K)) := some (v.map some)

/-- utils.py 160-355 `absolute_value_as_mixed_integer_constraint`, branch by branch. In the branch
`x_lo == 0 and binary_for_zero_input` the code assigns `ret.Ain_salck` (a typo), so `Ain_slack` stays
`None`; the model has no `Ain_slack` there. Floats are exact. -/
def absEnc (lo up : K) (flag : Bool) : Option (MIC K) :=
  if lo ≤ up then
    let ret : MIC K := { Aout_slack := some ⟨1, [[1]]⟩ }
    some <|
    if lo < 0 ∧ up > 0 then
      let ret := { ret with Ain_input := some (colT [1, -1, -1, 1]),
                            Ain_slack := some (colT [-1, -1, 1, 1]) }
      if flag then
        { ret with
          Ain_binary := some ⟨3, [[0, 0, 0], [0, 0, 0], [2 * lo, 0, 0], [0, 0, -2 * up]]⟩
          rhs_in := some [0, 0, 0, 0]
          Aeq_input := some ⟨1, [[0]]⟩
          Aeq_slack := some ⟨1, [[0]]⟩
          Aeq_binary := some ⟨3, [[1, 1, 1]]⟩
          rhs_eq := some [1] }
      else
        { ret with
          Ain_binary := some (colT [0, 0, -2 * lo, -2 * up])
          rhs_in := some [0, 0, -2 * lo, 0] }
    else if lo ≥ 0 ∧ ¬ flag then
      { ret with
        Ain_input := some (colT [-1, 1])
        Ain_slack := some (colT [0, 0])
        Ain_binary := some (colT [0, 0])
        rhs_in := some [-lo, up]
        Aeq_input := some (colT [1, 0])
        Aeq_slack := some (colT [-1, 0])
        Aeq_binary := some (colT [0, 1])
        rhs_eq := some [0, 1]
        binary_lo := finBound [1]
        binary_up := finBound [1] }
    else if lo > 0 ∧ flag then
      { ret with
        Ain_input := some (colT [-1, 1])
        Ain_slack := some (colT [0, 0])
        Ain_binary := some ⟨3, zerosM 2 3⟩
        rhs_in := some [-lo, up]
        Aeq_input := some (colT [1, 0, 0, 0])
        Aeq_slack := some (colT [-1, 0, 0, 0])
        Aeq_binary := some ⟨3, [[0, 0, 0], [1, 0, 0], [0, 1, 0], [0, 0, 1]]⟩
        rhs_eq := some [0, 0, 0, 1]
        binary_lo := finBound [0, 0, 1]
        binary_up := finBound [0, 0, 1] }
    else if lo = 0 ∧ flag then
      { ret with
        Ain_input := some (colT [-1, 1, 1])
        Ain_binary := some ⟨3, [[0, 0, 0], [0, 0, 0], [0, 0, -2 * up]]⟩
        rhs_in := some [-lo, up, 0]
        Aeq_input := some (colT [1, 0, 0])
        Aeq_slack := some (colT [-1, 0, 0])
        Aeq_binary := some ⟨3, [[0, 0, 0], [1, 0, 0], [0, 1, 1]]⟩
        rhs_eq := some [0, 0, 1]
        binary_lo := finBound [0, 0, 0]
        binary_up := finBound [0, 1, 1] }
    else if up ≤ 0 ∧ ¬ flag then
      { ret with
        Ain_input := some (colT [-1, 1])
        Ain_slack := some (colT [0, 0])
        Ain_binary := some (colT [0, 0])
        rhs_in := some [-lo, up]
        Aeq_input := some (colT [1, 0])
        Aeq_slack := some (colT [1, 0])
        Aeq_binary := some (colT [0, 1])
        rhs_eq := some [0, 0]
        binary_lo := finBound [0]
        binary_up := finBound [0] }
    else if up < 0 ∧ flag then
      { ret with
        Ain_input := some (colT [-1, 1])
        Ain_slack := some (colT [0, 0])
        Ain_binary := some ⟨3, zerosM 2 3⟩
        rhs_in := some [-lo, up]
        Aeq_input := some (colT [1, 0, 0, 0])
        Aeq_slack := some (colT [1, 0, 0, 0])
        Aeq_binary := some ⟨3, [[0, 0, 0], [1, 0, 0], [0, 1, 0], [0, 0, 1]]⟩
        rhs_eq := some [0, 1, 0, 0]
        binary_lo := finBound [1, 0, 0]
        binary_up := finBound [1, 0, 0] }
    else if up = 0 ∧ flag then
      { ret with
        Ain_input := some (colT [-1, 1, -1])
        Ain_slack := some (colT [0, 0, 1])
        Ain_binary := some ⟨3, [[0, 0, 0], [0, 0, 0], [2 * lo, 0, 0]]⟩
        rhs_in := some [-lo, up, 0]
        Aeq_input := some (colT [1, 0, 0])
        Aeq_slack := some (colT [1, 0, 0])
        Aeq_binary := some ⟨3, [[0, 0, 0], [0, 0, 1], [1, 1, 0]]⟩
        rhs_eq := some [0, 0, 1]
        binary_lo := finBound [0, 0, 0]
        binary_up := finBound [1, 1, 0] }
    else ret
  else none

/-- `torch.max` of a nonempty vector. -/
def vmax : Vec K → K
  | [] => 0
  | [a] => a
  | a :: b :: l => max a (vmax (b :: l))

/-- `torch.diag(d)` as rows. -/
def diagM (d : Vec K) : Mat K := (List.range d.length).map fun i => vsmul (d.getD i 0) (eyeRow d.length i)

/-- `-torch.eye(n)`. -/
def negEye (n : ℕ) : Mat K := (List.range n).map fun i => vneg (eyeRow n i)

/-- utils.py 103-107: indices `i` with `x_up[i] - x_lo[j] < 0` for some `j`. -/
def nonMaximal (lo up : Vec K) : List ℕ :=
  (List.range lo.length).filter fun i =>
    (List.range lo.length).any fun j => decide (up.getD i 0 - lo.getD j 0 < 0)

/-- utils.py 71-120 `max_as_mixed_integer_constraint`. `torch.nonzero(..).squeeze().tolist()` is an
`int` when there is exactly one non-maximal index, and `len` of it raises; `torch.max` of an empty
tensor raises. -/
def maxEnc (lo up : Vec K) : Option (MIC K) :=
  let nx := lo.length
  if up.length = nx ∧ (∀ i, i < nx → up.getD i 0 ≥ lo.getD i 0) ∧ 0 < nx then
    let m := vmax up
    let gap : Vec K := lo.map fun l => m - l
    let idx := nonMaximal lo up
    let ret : MIC K :=
      { Aout_slack := some ⟨1, [[1]]⟩
        Ain_input := some ⟨nx, eye nx ++ negEye nx⟩
        Ain_slack := some ⟨1, List.replicate nx [-1] ++ List.replicate nx [1]⟩
        Ain_binary := some ⟨nx, zerosM nx nx ++ diagM gap⟩
        rhs_in := some (zeros nx ++ gap)
        Aeq_binary := some ⟨nx, [List.replicate nx 1]⟩
        rhs_eq := some [1] }
    if idx.length = 1 then none
    else if idx.length > 0 then
      some { ret with
        Aeq_binary := some ⟨nx, List.replicate nx 1 :: idx.map fun i => eyeRow nx i⟩
        rhs_eq := some (1 :: zeros idx.length)
        binary_lo := finBound (zeros nx)
        binary_up := finBound ((List.range nx).map fun i => if i ∈ idx then 0 else 1) }
    else some ret
  else none

/-- utils.py 1516-1542 `box_boundary`. -/
def boxBoundary (lo up : Vec K) : Option (MIC K) :=
  let nx := lo.length
  if up.length = nx then
    let w := vsub up lo
    some
      { Ain_input := some ⟨nx, negEye nx ++ eye nx⟩
        Ain_binary := some (blockDiag ⟨nx, diagM w⟩ ⟨nx, diagM w⟩)
        rhs_in := some (vneg lo ++ up)
        Aeq_binary := some ⟨2 * nx, [List.replicate (2 * nx) 1]⟩
        rhs_eq := some [1] }
  else none

end NNL.Model
