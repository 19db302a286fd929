import Verif.Model.NetEnc
import Mathlib.Data.List.Sublists

/-!
# Strengthening cuts for (leaky) ReLU units

mip_utils.py 11-329 and relu_to_optimization.py 291-371.
-/

namespace NNL.Model

open NNL NNL.Spec

variable {K : Type*} [Field K] [LinearOrder K]

/-- The triple `(x_coeff, binary_coeff, constant)` of the cut
`y <= x_coeff @ x + binary_coeff * beta + constant`. -/
structure Cut (K : Type*) where
  xc : Vec K
  bc : K
  const : K

/-- Right-hand side of the cut. -/
def Cut.rhs (t : Cut K) (x : Vec K) (β : K) : K := dot t.xc x + t.bc * β + t.const

/-- mip_utils.py 50-57, the loop body for `i in indices`. -/
def cutIn (c : K) (w lo up : Vec K) (t : Cut K) (i : ℕ) : Cut K :=
  let loBar := if w.getD i 0 ≥ 0 then lo.getD i 0 else up.getD i 0
  { xc := t.xc.set i (t.xc.getD i 0 + w.getD i 0)
    const := t.const + -(1 - c) * w.getD i 0 * loBar
    bc := t.bc + (1 - c) * w.getD i 0 * loBar }

/-- mip_utils.py 58-64, the loop body for `i in not_indices`. -/
def cutOut (c : K) (w lo up : Vec K) (t : Cut K) (i : ℕ) : Cut K :=
  let upBar := if w.getD i 0 ≥ 0 then up.getD i 0 else lo.getD i 0
  { xc := t.xc.set i (t.xc.getD i 0 + c * w.getD i 0)
    const := t.const
    bc := t.bc + (1 - c) * w.getD i 0 * upBar }

/-- mip_utils.py 11-65 `strengthen_relu_mip_w_indices`. A python set of indices is a list (its iteration
order); an index outside `w` raises. -/
def cutWithIndices (c : K) (w : Vec K) (b : K) (lo up : Vec K) (I : List ℕ) : Option (Cut K) :=
  if 0 ≤ c ∧ c < 1 ∧ lo.length = w.length ∧ up.length = lo.length ∧ ∀ i ∈ I, i < w.length then
    let t0 : Cut K := { xc := zeros w.length, bc := b * (1 - c), const := b * c }
    let t1 := I.foldl (cutIn c w lo up) t0
    some (((List.range w.length).filter fun i => decide (i ∉ I)).foldl (cutOut c w lo up) t1)
  else none

/-- mip_utils.py 68-86 `find_index_set_to_strengthen`. -/
def findIndexSet (w lo up xh : Vec K) (bh : K) : List ℕ :=
  (List.range w.length).filter fun i =>
    decide (w.getD i 0 ≥ 0 ∧ xh.getD i 0 ≤ (1 - bh) * lo.getD i 0 + bh * up.getD i 0) ||
    decide (w.getD i 0 < 0 ∧ xh.getD i 0 > (1 - bh) * up.getD i 0 + bh * lo.getD i 0)

/-- mip_utils.py 89-127 `strengthen_relu_mip_given_pts`: the cuts kept (the code returns `None` for an
empty list). -/
def cutsGivenPts (c : K) (w : Vec K) (b : K) (lo up : Vec K) :
    List (Vec K × K × K) → Option (List (Cut K))
  | [] => some []
  | (xh, yh, bh) :: rest =>
    match cutWithIndices c w b lo up (findIndexSet w lo up xh bh), cutsGivenPts c w b lo up rest with
    | some t, some r => some (if yh > t.rhs xh bh then t :: r else r)
    | _, _ => none

/-- mip_utils.py 284-293, `selective = False`: all index sets except the empty and the full one
(`itertools.combinations`; the order of the sets is not modelled). -/
def cutsAll (c : K) (w : Vec K) (b : K) (lo up : Vec K) : Option (List (Cut K)) :=
  collect ((((List.range w.length).sublists).filter fun I =>
    decide (1 ≤ I.length ∧ I.length < w.length)).map (cutWithIndices c w b lo up))

/-- `itertools.product((lo[0], up[0]), (lo[1], up[1]), ...)`. -/
def boxVertices : Vec K → Vec K → List (Vec K)
  | l :: lo, u :: up => [l, u].flatMap fun a => (boxVertices lo up).map (a :: ·)
  | _, _ => [[]]

/-- mip_utils.py 130-162 `_get_linear_input_vertices`. -/
def linearInputVertices (lo up w : Vec K) (b rl ru : K) : Option (List (Vec K)) :=
  if lo.length = up.length ∧ lo.length = w.length then
    if rl = rowLo w b lo up ∧ ru = rowUp w b lo up then some (boxVertices lo up)
    else if rl ≥ rowLo w b lo up ∧ ru ≤ rowUp w b lo up then
      some ((boxVertices lo up).filter fun v => decide (rl ≤ dot w v + b ∧ dot w v + b ≤ ru))
    else none
  else none

/-- mip_utils.py 165-184 `_compute_beta_range`. -/
def betaRange (c : K) (w : Vec K) (b : K) (ts : List (Cut K)) (xh : Vec K) : K × K :=
  let lhs := max (dot w xh + b) (c * (dot w xh + b))
  ts.foldl (fun r t =>
    let bound := lhs - dot t.xc xh - t.const
    if t.bc > 0 then (max r.1 (bound / t.bc), r.2)
    else if t.bc < 0 then (r.1, min r.2 (bound / t.bc))
    else r) (0, 1)

/-- mip_utils.py 277-279: the two upper bounds of the big-M formulation. -/
def existCuts (c : K) (w : Vec K) (b rl ru : K) : List (Cut K) :=
  [ { xc := vsmul c w, bc := (1 - c) * ru, const := c * b },
    { xc := w, bc := (1 - c) * rl, const := b - (1 - c) * rl } ]

/-- mip_utils.py 302-322, the loop body for one `beta_hat`. -/
def selectiveStep (c : K) (w : Vec K) (b : K) (lo up : Vec K) (ex : List (Cut K)) (xh : Vec K)
    (ts : Option (List (Cut K))) (bh : K) : Option (List (Cut K)) :=
  match ts, cutWithIndices c w b lo up (findIndexSet w lo up xh bh) with
  | some ts, some t =>
    if (∀ e ∈ ex ++ ts, t.rhs xh bh < e.rhs xh bh - 1 / 1000000) then some (ts ++ [t]) else some ts
  | _, _ => none

/-- mip_utils.py 295-322, `selective = True`. -/
def cutsSelective (c : K) (w : Vec K) (b : K) (lo up : Vec K) (rl ru : K) :
    Option (List (Cut K)) :=
  match linearInputVertices lo up w b rl ru with
  | none => none
  | some vs => vs.foldl (fun ts xh =>
      match ts with
      | none => none
      | some ts0 =>
        let r := betaRange c w b (existCuts c w b rl ru ++ ts0) xh
        [r.1, r.2].foldl (selectiveStep c w b lo up (existCuts c w b rl ru) xh) ts) (some [])

/-- mip_utils.py 219-329 `strengthen_relu_mip`. -/
def strengthenReluMip (c : K) (w : Vec K) (b : K) (lo up : Vec K) (rl ru : K) (selective : Bool) :
    Option (List (Cut K)) :=
  if rl < 0 ∧ ru > 0 ∧ lo.length = up.length then
    if selective then cutsSelective c w b lo up rl ru else cutsAll c w b lo up
  else none

/-- relu_to_optimization.py 314-315: the slope of the layer. -/
def actSlope : Act K → K
  | .relu => 0
  | .leaky c => c

/-- relu_to_optimization.py 326-366: the row for unit `j` of a layer, if its cut is violated by more than
`1E-12` at the point. `first`, `xs`, `n`, `offPrev`, `off` are as in `placeRow`; `li`, `lo`, `up` are the
value and bounds of the layer input, `y` the value of the unit output and `β` of its binary. -/
def unitCut (first : Bool) (xs n offPrev off : ℕ) (l : Lin K) (a : Act K) (li lo up : Vec K) (j : ℕ)
    (y β : K) : Option (List (LRow K)) :=
  let w := l.W.getD j []
  match cutWithIndices (actSlope a) w ((l.bias.getD (zeros l.W.length)).getD j 0) lo up
      (findIndexSet w lo up li β) with
  | none => none
  | some t =>
    some (if y > dot t.xc li + t.bc * β + t.const + 1 / 1000000000000 then
      let sc := (zeros n).set (off + j) 1
      [⟨if first then vneg t.xc else zeros xs, if first then sc else setSlice sc offPrev (vneg t.xc),
        (zeros n).set (off + j) (-t.bc), t.const⟩]
    else [])

/-- relu_to_optimization.py 291-371 `strengthen_mip_at_point`: the rows appended (`None`s for an empty
list). `cnt` is `linear_input_count`; `pt` are the values of the input followed by all slacks, `β` the
binaries. -/
def strengthenAt (xs n : ℕ) (pt β lo up : Vec K) :
    Bool → ℕ → ℕ → ℕ → List (Lin K × Act K) → Option (List (LRow K))
  | _, _, _, _, [] => some []
  | first, offPrev, off, cnt, (l, a) :: rest =>
    match collect ((List.range l.W.length).map fun j =>
        unitCut first xs n offPrev off l a (slice pt cnt l.inF) (slice lo cnt l.inF)
          (slice up cnt l.inF) j (pt.getD (cnt + l.inF + j) 0) (β.getD (off + j) 0)),
      strengthenAt xs n pt β lo up false off (off + l.W.length) (cnt + l.inF) rest with
    | some rows, some r => some (rows.flatten ++ r)
    | _, _ => none

end NNL.Model
