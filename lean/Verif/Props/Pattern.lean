import Verif.Lemmas.OutGrad
import Verif.Props.Network

/-! # Properties C17, C18, C19: activation patterns -/

set_option linter.unusedSectionVars false

namespace NNL.Props

open NNL NNL.Spec NNL.Model

variable {K : Type*} [Field K] [LinearOrder K] [IsStrictOrderedRing K]

/-! ## C17 -/

/-- C17: the polyhedron `P x <= q` is the set of inputs that realise the pattern. -/
theorem C17_region {net : Net K} {n : ℕ} {pat : List (List Bool)} {p : Piece K} {x : Vec K}
    (h : reluGivenPattern net n pat = some p) (hok : net.Ok n) (hx : x.length = n) :
    RowsLe p.P p.q x ↔ Realises net.hidden x (pat.take net.hidden.length) := by
  obtain ⟨⟨P, q, A, b⟩, hr, rfl⟩ := Option.map_eq_some_iff.1 h
  obtain ⟨-, h2, -⟩ := rgapHid_spec n _ _ _ _ _ _ _ _ _ hr hok.1 (hasCols_eye n) (by simp) (by simp)
  simp only
  rw [h2, matVec_eye n x hx, vadd_zeros _ _ hx]

/-- C17: `g x + h` is the affine piece selected by the pattern, for every input. -/
theorem C17_piece {net : Net K} {n : ℕ} {pat : List (List Bool)} {p : Piece K} {x : Vec K}
    (h : reluGivenPattern net n pat = some p) (hok : net.Ok n) (hx : x.length = n) :
    vadd (matVec p.gT x) p.h = net.piece pat x := by
  obtain ⟨⟨P, q, A, b⟩, hr, rfl⟩ := Option.map_eq_some_iff.1 h
  obtain ⟨-, -, h3, h4, h5, h6, h7⟩ := rgapHid_spec n _ _ _ _ _ _ _ _ _ hr hok.1 (hasCols_eye n)
    (by simp) (by simp)
  simp only
  rw [eval_affine net.last n A b x h5 (by omega), h3, matVec_eye n x hx, vadd_zeros _ _ hx]
  rfl

/-- C17: `g` is the Jacobian of that piece. -/
theorem C17_jacobian {net : Net K} {n : ℕ} {pat : List (List Bool)} {p : Piece K}
    (h : reluGivenPattern net n pat = some p) (hok : net.Ok n) : net.IsJac n pat p.gT := by
  obtain ⟨⟨P, q, A, b⟩, hr, rfl⟩ := Option.map_eq_some_iff.1 h
  obtain ⟨-, -, -, h4, h5, h6, h7⟩ := rgapHid_spec n _ _ _ _ _ _ _ _ _ hr hok.1 (hasCols_eye n)
    (by simp) (by simp)
  refine ⟨hasCols_matMul _ _ h5, length_matMul _ _ _, fun v hv => ?_⟩
  simp only
  rw [matVec_matMul n _ _ _ h5, h4, matVec_eye n v hv]
  rfl

theorem pieceHid_of_realises {hs : List (Lin K × Act K)} {pat : List (List Bool)} (x : Vec K)
    (h : Realises hs x (pat.take hs.length)) : pieceHid hs pat x = hiddenOut hs x := by
  induction hs generalizing pat x with
  | nil => cases pat <;> rfl
  | cons lp hs ih =>
    obtain ⟨l, a⟩ := lp
    cases pat with
    | nil => simp [Realises, preacts] at h
    | cons p ps =>
      simp only [Realises, preacts, List.length_cons, List.take_succ_cons,
        List.forall₂_cons] at h
      simp only [pieceHid, hiddenOut]
      rw [zipWith_gain_of_sign a p _ h.1]
      exact ih _ h.2

/-- C17: on its region, the affine function returned is the network. -/
theorem C17_value {net : Net K} {n : ℕ} {pat : List (List Bool)} {p : Piece K} {x : Vec K}
    (h : reluGivenPattern net n pat = some p) (hok : net.Ok n) (hx : x.length = n)
    (hP : RowsLe p.P p.q x) : net.eval x = vadd (matVec p.gT x) p.h := by
  rw [C17_piece h hok hx, Net.piece, pieceHid_of_realises x ((C17_region h hok hx).1 hP)]
  rfl

/-- C17: the function accepts the patterns with one flag per unit (further layers of the pattern are
ignored) and no others. -/
theorem C17_accepts (net : Net K) (n : ℕ) (pat : List (List Bool)) :
    (reluGivenPattern net n pat).isSome ↔ PatFits net.hidden (pat.take net.hidden.length) := by
  rw [reluGivenPattern, Option.isSome_map, rgapHid_isSome]

theorem patFits_of_realises {hs : List (Lin K × Act K)} {pat : List (List Bool)} {x : Vec K}
    (hb : ∀ l ∈ hs, l.1.Ok) (h : Realises hs x pat) : PatFits hs pat := by
  induction hs generalizing pat x with
  | nil => cases h; exact List.Forall₂.nil
  | cons lp hs ih =>
    obtain ⟨l, a⟩ := lp
    obtain ⟨p, ps, hp, hps, rfl⟩ := List.forall₂_cons_right_iff.1 h
    refine List.Forall₂.cons ?_ (ih (fun l hl => hb l (List.mem_cons_of_mem _ hl)) hps)
    have hl : l.Ok := hb (l, a) (by simp)
    have := hp.length_eq
    rw [this]
    exact Lin.length_eval hl x

theorem hidOk_all {m : ℕ} : ∀ (hs : List (Lin K × Act K)) (k : ℕ), HidOk k hs m →
    ∀ l ∈ hs, l.1.Ok := by
  intro hs
  induction hs with
  | nil => simp
  | cons lp hs ih =>
    obtain ⟨l, a⟩ := lp
    intro k h q hq
    rcases List.mem_cons.1 hq with rfl | hq
    · exact h.2.1
    · exact ih _ h.2.2 _ hq

/-- C17: every input lies in the region of the pattern computed for it, and that piece gives the
value of the network there. -/
theorem C17_cover {net : Net K} {n : ℕ} {x : Vec K} (hok : net.Ok n) (hx : x.length = n) :
    ∃ p, reluGivenPattern net n (computePattern net.hidden x) = some p ∧ RowsLe p.P p.q x ∧
      net.eval x = vadd (matVec p.gT x) p.h := by
  have hr := realises_computePattern net.hidden x
  have hf := patFits_of_realises (hidOk_all _ _ hok.1) hr
  have ht : (computePattern net.hidden x).take net.hidden.length = computePattern net.hidden x := by
    rw [List.take_of_length_le (le_of_eq hf.length_eq)]
  obtain ⟨p, hp⟩ := Option.isSome_iff_exists.1
    ((C17_accepts net n (computePattern net.hidden x)).2 (by rw [ht]; exact hf))
  have hP := (C17_region hp hok hx).2 (by rw [ht]; exact hr)
  exact ⟨p, hp, hP, C17_value hp hok hx hP⟩

/-- The hypotheses of C17 are met: a network with a leaky layer, one active and one inactive unit. -/
example : ∃ p, reluGivenPattern exNet 2 [[true, false], [true]] = some p ∧
    RowsLe p.P p.q [3, 1] ∧ ¬ RowsLe p.P p.q [0, 0] ∧ p.gT = [[2, 4], [3, 6]] ∧ p.h = [1, 0] := by
  obtain ⟨p, hp⟩ := Option.isSome_iff_exists.1
    ((C17_accepts exNet 2 [[true, false], [true]]).2 (by simp [exNet, PatFits]))
  refine ⟨p, hp, (C17_region hp exNet_ok rfl).2 ?_, fun h => ?_, ?_, ?_⟩
  · norm_num [exNet, Realises, preacts, Lin.eval, Lin.b, vadd, matVec, Act.f, relu, zeros, SignOk]
  · have := (C17_region hp exNet_ok rfl).1 h
    norm_num [exNet, Realises, preacts, Lin.eval, Lin.b, vadd, matVec, Act.f, relu, zeros,
      SignOk] at this
  · simp [reluGivenPattern, exNet, rgapHid] at hp
    subst hp
    norm_num [matMul, vecMat, eye, eyeRow, zeros, vadd, vsmul, matVec, List.range_succ, rgapRows,
      List.replicate_succ]
  · simp [reluGivenPattern, exNet, rgapHid] at hp
    subst hp
    norm_num [matMul, vecMat, eye, eyeRow, zeros, vadd, vsmul, matVec, List.range_succ, rgapRows,
      List.replicate_succ]

/-! ## C18 -/

/-- C18: a pattern is returned exactly if it is compatible with the input. -/
theorem C18_mem (hs : List (Lin K × Act K)) (x : Vec K) (pat : List (List Bool)) :
    pat ∈ allPatterns hs x ↔ Realises hs x pat := by
  rw [allPatterns, allPatternsFrom_mem]
  simp

/-- C18: no pattern is returned twice. -/
theorem C18_nodup (hs : List (Lin K × Act K)) (x : Vec K) : (allPatterns hs x).Nodup :=
  allPatternsFrom_nodup hs _ x (by simp)

/-- C18: the number of patterns is 2 to the number of units at the kink. -/
theorem C18_count (hs : List (Lin K × Act K)) (x : Vec K) :
    (allPatterns hs x).length = 2 ^ numKinks (preacts hs x) := by
  rw [allPatterns, length_allPatternsFrom]; simp

/-- Points with one unit at the kink, and a point where all three units are. -/
example : allPatterns exNet.hidden [0, 0] = [[[true, true], [false]], [[false, true], [false]]] ∧
    allPatterns exNet.hidden [1 / 2, -1 / 4]
      = [[[true, true], [false]], [[false, true], [false]]] ∧
    (allPatterns exNet.hidden [2 / 3, -1 / 3]).length = 8 := by
  refine ⟨?_, ?_, ?_⟩
  · norm_num [allPatterns, allPatternsFrom, exNet, layerPatterns, extendUnit, Lin.eval, Lin.b, vadd,
      matVec, Act.f, relu, zeros]
  · norm_num [allPatterns, allPatternsFrom, exNet, layerPatterns, extendUnit, Lin.eval, Lin.b, vadd,
      matVec, Act.f, relu, zeros]
  · norm_num [C18_count, numKinks, preacts, exNet, Lin.eval, Lin.b, vadd,
      matVec, Act.f, relu, zeros]

/-! ## C19 -/

/-- C19: the flattened binaries of a pattern are turned back into that pattern. -/
theorem C19_left (pat : List (List Bool)) :
    binToPattern (pat.map List.length) (patVec pat : Vec K) = some pat := by
  have hs : (patVec pat : Vec K).length = (pat.map List.length).sum := by
    rw [patVec, List.length_map, List.length_flatten]
  have hc : (∀ b ∈ (patVec pat : Vec K), b = 1 ∨ b = 0) ∧
      (patVec pat : Vec K).length = (pat.map List.length).sum := by
    refine ⟨?_, hs⟩
    intro b hb
    obtain ⟨u, _, rfl⟩ := List.mem_map.1 hb
    cases u <;> simp
  rw [binToPattern, if_pos hc]
  obtain ⟨h1, h2⟩ := splitBin_spec (pat.map List.length) 0 (patVec pat : Vec K) (by omega)
  apply congrArg
  apply pattern_ext h1
  rw [h2]
  have : slice (patVec pat : Vec K) 0 (pat.map List.length).sum = patVec pat := by
    rw [slice, List.drop_zero, List.take_of_length_le (by omega)]
  rw [this, patVec, List.map_map]
  have : ((fun b : K => decide (b = 1)) ∘ fun u : Bool => if u then (1 : K) else 0) = id := by
    funext u; cases u <;> simp
  rw [this, List.map_id]

/-- C19: the pattern returned for an array of binaries has the layer widths of the network and
flattens to that array. -/
theorem C19_right {ws : List ℕ} {z : Vec K} {pat : List (List Bool)}
    (h : binToPattern ws z = some pat) : pat.map List.length = ws ∧ patVec pat = z :=
  binToPattern_spec h

/-- C19: exactly the 0/1 arrays with one entry per unit are accepted. -/
theorem C19_accepts (ws : List ℕ) (z : Vec K) :
    (binToPattern ws z).isSome ↔ (∀ b ∈ z, b = 0 ∨ b = 1) ∧ z.length = ws.sum := by
  unfold binToPattern
  have : (∀ b ∈ z, b = 1 ∨ b = 0) ↔ ∀ b ∈ z, b = 0 ∨ b = 1 :=
    forall_congr' fun b => imp_congr_right fun _ => or_comm
  split
  · rename_i h; rw [this] at h; simpa using h
  · rename_i h; rw [this] at h; simpa using h

/-- C19: the index is defined exactly for the choices of one existing unit per layer, and is smaller
than the number of choices. -/
theorem C19_index_accepts (ws path : List ℕ) : (alphaIndex ws path).isSome ↔ PathOk ws path := by
  obtain ⟨h1, h2, h3⟩ := paths_spec ws
  constructor
  · intro h
    rw [alphaIndex] at h
    split at h
    · rename_i hl
      refine ⟨hl, ?_⟩
      have : ∀ (ws is : List ℕ) (idx : ℕ), is.length = ws.length → (alphaLoop idx ws is).isSome →
          ∀ k, k < ws.length → is.getD k 0 < ws.getD k 0 := by
        intro ws
        induction ws with
        | nil => intro is idx _ _ k hk; simp at hk
        | cons w ws ih =>
          intro is idx hl h k hk
          cases is with
          | nil => simp at hl
          | cons i is =>
            simp only [alphaLoop] at h
            split at h
            · rename_i hi
              cases k with
              | zero => simpa using hi
              | succ k => simpa using ih is _ (by simpa using hl) h k (by simpa using hk)
            · simp at h
      exact this ws path 0 hl h
    · simp at h
  · intro h
    have hm := h3 path h
    have : alphaIndex ws path ∈ (pathsFrom [[]] ws).map (alphaIndex ws) :=
      List.mem_map.2 ⟨path, hm, rfl⟩
    rw [h1] at this
    obtain ⟨i, _, hi⟩ := List.mem_map.1 this
    rw [← hi]; rfl

/-- C19: the index is in range. -/
theorem C19_index_lt {ws path : List ℕ} {i : ℕ} (h : alphaIndex ws path = some i) : i < ws.prod := by
  obtain ⟨h1, h2, h3⟩ := paths_spec ws
  have hp := (C19_index_accepts ws path).1 (by rw [h]; rfl)
  have : alphaIndex ws path ∈ (pathsFrom [[]] ws).map (alphaIndex ws) :=
    List.mem_map.2 ⟨path, h3 path hp, rfl⟩
  rw [h1, h] at this
  obtain ⟨j, hj, hj'⟩ := List.mem_map.1 this
  cases hj'
  exact List.mem_range.1 hj

theorem paths_nodup (ws : List ℕ) : ((pathsFrom [[]] ws).map (alphaIndex ws)).Nodup := by
  rw [(paths_spec ws).1]
  exact List.nodup_range.map (Option.some_injective _)

/-- C19: two different choices get different indices. -/
theorem C19_index_injective {ws p q : List ℕ} {i : ℕ} (hp : alphaIndex ws p = some i)
    (hq : alphaIndex ws q = some i) : p = q := by
  obtain ⟨h1, h2, h3⟩ := paths_spec ws
  have m1 := h3 p ((C19_index_accepts ws p).1 (by rw [hp]; rfl))
  have m2 := h3 q ((C19_index_accepts ws q).1 (by rw [hq]; rfl))
  exact List.inj_on_of_nodup_map (paths_nodup ws) m1 m2 (by rw [hp, hq])

/-- C19: every index below the number of choices is reached. -/
theorem C19_index_surjective (ws : List ℕ) (i : ℕ) (h : i < ws.prod) :
    ∃ p, PathOk ws p ∧ alphaIndex ws p = some i := by
  obtain ⟨h1, h2, h3⟩ := paths_spec ws
  have : some i ∈ (pathsFrom [[]] ws).map (alphaIndex ws) := by
    rw [h1]; exact List.mem_map.2 ⟨i, List.mem_range.2 h, rfl⟩
  obtain ⟨p, hp, hp'⟩ := List.mem_map.1 this
  exact ⟨p, h2 p hp, hp'⟩

/-- C19: the warm start for the binaries is read back as the pattern of the input, and that input
realises it. -/
theorem C19_warmstart {net : Net K} {n : ℕ} (hok : net.Ok n) (x : Vec K) :
    ∃ pat, binToPattern (net.hidden.map fun p => p.1.W.length) (warmstart net.hidden x) = some pat ∧
      Realises net.hidden x pat := by
  have hr := realises_computePattern net.hidden x
  have hf := patFits_of_realises (hidOk_all _ _ hok.1) hr
  refine ⟨computePattern net.hidden x, ?_, hr⟩
  have hw : (net.hidden.map fun p => p.1.W.length) = (computePattern net.hidden x).map List.length := by
    have : ∀ (hs : List (Lin K × Act K)) (pat : List (List Bool)), PatFits hs pat →
        (hs.map fun p => p.1.W.length) = pat.map List.length := by
      intro hs pat h
      induction h with
      | nil => rfl
      | cons h _ ih => simp [ih, h]
    exact this _ _ hf
  rw [hw]
  exact C19_left _

example : binToPattern [2, 3] ([1, 0, 0, 1, 1] : Vec ℚ)
    = some [[true, false], [false, true, true]] ∧
    alphaIndex [2, 3, 2] [1, 2, 0] = some 10 ∧ alphaIndex [2, 3, 2] [1, 3, 0] = none := by
  refine ⟨?_, by decide, by decide⟩
  norm_num [binToPattern, splitBin, slice]

end NNL.Props
