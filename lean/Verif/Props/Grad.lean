import Verif.Lemmas.GradVec
import Verif.Lemmas.Grad
import Verif.Props.Pattern

/-! # Properties C20, C21, C22: gradients of a network -/

set_option linter.unusedSectionVars false

namespace NNL.Props

open NNL NNL.Spec NNL.Model

variable {K : Type*} [Field K] [LinearOrder K] [IsStrictOrderedRing K]

/-- Number of units per hidden layer. -/
def widths (net : Net K) : List ℕ := net.hidden.map fun p => p.1.W.length

theorem patFits_of_widths {hs : List (Lin K × Act K)} {pat : List (List Bool)}
    (h : pat.map List.length = hs.map fun p => p.1.W.length) : PatFits hs pat := by
  induction hs generalizing pat with
  | nil =>
    have : pat = [] := by simpa using h
    subst this; exact List.Forall₂.nil
  | cons q hs ih =>
    cases pat with
    | nil => simp at h
    | cons p ps =>
      simp only [List.map_cons, List.cons.injEq] at h
      exact List.Forall₂.cons h.1 (ih h.2)

/-! ## C20 -/

/-- What `outputGradient` returns, in terms of the final queue. -/
theorem outputGradient_spec {net : Net K} {n : ℕ} {e : GradEnc K} {pat : List (List Bool)}
    (h : outputGradient net = some e) (hok : net.Ok n) (hp : PatFits net.hidden pat) :
    ∃ q : List (List ℕ × Mat K), q.map Prod.fst = pathsFrom [[]] (widths net) ∧
      e.M = q.map (fun pg => pg.2.getD 0 []) ∧ (∀ pg ∈ q, pg.2.length = 1) ∧
      (∀ pg ∈ q, pg.2.length = net.last.W.length ∧ HasCols pg.2 n) ∧
      (e.rows = ((pathsFrom [[]] (widths net)).zipIdx 0).flatMap fun t =>
        alphaRows (widths net) (widths net).prod t.2 t.1) ∧
      (∀ p ∈ net.hidden, p.2 = .relu) ∧ net.hidden ≠ [] ∧
      ∀ v i, i < net.last.W.length → qsum pat q i v = (net.dir pat v).getD i 0 := by
  unfold outputGradient at h
  simp only at h
  split at h
  · cases h
  · rename_i l a hs hhid
    obtain ⟨q, hq, hfill⟩ := Option.bind_eq_some_iff.1 h
    have hok' := hok.1
    rw [hhid] at hok'
    have hl := hok'.2.1
    have hln := hok'.1
    obtain ⟨s1, s2, s3, s4⟩ := gradQueue_spec n net.last hok.2 rfl pat net.hidden n 0 [([], l.W)] q
      (by rw [hhid]; simp) hok.1 hq (by simp)
      (by simp only [List.mem_singleton, forall_eq, hhid, List.map_cons, List.headD_cons, true_and]
          rw [← hln]; exact hl.1) (by simpa using hp)
    have s1' : q.map Prod.fst = pathsFrom [[]] (widths net) := by simpa [widths] using s1
    have hlen : q.length = (widths net).prod := by
      have e1 := congrArg List.length (paths_spec (widths net)).1
      have e2 := congrArg List.length s1'
      simp only [List.length_map, List.length_range] at e1 e2
      omega
    have hidx : q.map (fun pg => alphaIndex (widths net) pg.1) = (List.range' 0 q.length).map some := by
      have := (paths_spec (widths net)).1
      rw [← s1', List.map_map] at this
      rw [hlen, ← List.range_eq_range']
      exact this
    obtain ⟨f1, f2, f3⟩ := gradFill_spec (widths net) (widths net).prod q
      (List.replicate (widths net).prod []) 0 e hfill hidx (by simp [hlen])
    refine ⟨q, s1', by simpa using f1, f2, s2, by rw [f3, s1'], s3, by rw [hhid]; simp, ?_⟩
    intro v i hi
    have hlW : (matVec l.W v).length = l.W.length := by simp
    have := s4 (matVec l.W v) v (by rw [hhid]; simp) (by
      intro j hj
      rw [getD_matVec]
      simp [qsum, pathProd]) i hi
    rw [this, Net.dir, getD_matVec]
    rw [hhid] at hp ⊢
    cases hp with
    | @cons p _ ps _ hpq hps =>
      have ha : a = .relu := s3 (l, a) (by rw [hhid]; simp)
      subst ha
      simp [dirHid]

theorem pathRows_iff {ws : List ℕ} {al z : Vec K} :
    (∀ r ∈ (((pathsFrom [[]] ws).zipIdx 0).flatMap fun t =>
        alphaRows (K := K) ws ws.prod t.2 t.1), r.val [] al z ≤ r.rhs) ↔
      ∀ path idx, alphaIndex ws path = some idx →
        ∀ r ∈ alphaRows (K := K) ws ws.prod idx path, r.val [] al z ≤ r.rhs := by
  obtain ⟨h1, h2, h3⟩ := paths_spec ws
  have key : ∀ path idx, (path, idx) ∈ (pathsFrom [[]] ws).zipIdx 0 ↔
      alphaIndex ws path = some idx := by
    intro path idx
    rw [List.mem_zipIdx_iff_getElem?]
    simp only
    constructor
    · intro h
      have e := congrArg (fun l => l[idx]?) h1
      simp only [List.getElem?_map, h, Option.map_some] at e
      have hi : idx < ws.prod := by
        by_contra hc
        rw [List.getElem?_eq_none (by simpa using hc)] at e
        simp at e
      rw [List.getElem?_range hi] at e
      simpa using e
    · intro h
      have hi := C19_index_lt h
      have e := congrArg (fun l => l[idx]?) h1
      simp only [List.getElem?_map, List.getElem?_range hi, Option.map_some] at e
      obtain ⟨p, hp, hp'⟩ := Option.map_eq_some_iff.1 e
      rw [hp, C19_index_injective hp' h]
  constructor
  · intro h path idx hi r hr
    exact h r (List.mem_flatMap.2 ⟨(path, idx), (key path idx).2 hi, hr⟩)
  · intro h r hr
    obtain ⟨⟨path, idx⟩, ht, hr⟩ := List.mem_flatMap.1 hr
    exact h path idx ((key path idx).1 ht) r hr

/-- C20: for every binary activation `β` (with pattern `pat`) and every `α >= 0`, the rows hold exactly
if the entry of `α` of each path is the product of the binaries along that path. -/
theorem C20_alpha {net : Net K} {n : ℕ} {e : GradEnc K} {β α : Vec K} {pat : List (List Bool)}
    (h : outputGradient net = some e) (hok : net.Ok n) (hβ : binToPattern (widths net) β = some pat)
    (h0 : ∀ a ∈ α, 0 ≤ a) :
    (∀ r ∈ e.rows, r.val [] α β ≤ r.rhs) ↔
      ∀ path idx, alphaIndex (widths net) path = some idx → α.getD idx 0 = pathProd pat path := by
  obtain ⟨hw, hv⟩ := C19_right hβ
  have hp : PatFits net.hidden pat := patFits_of_widths hw
  obtain ⟨q, -, -, -, -, hrows, -, hne, -⟩ := outputGradient_spec h hok hp
  rw [hrows, pathRows_iff]
  refine forall_congr' fun path => forall_congr' fun idx => imp_congr_right fun hi => ?_
  have hpath := (C19_index_accepts _ _).1 (by rw [hi]; rfl : (alphaIndex (widths net) path).isSome)
  rw [alphaRows_holds hpath _ _ (C19_index_lt hi)]
  have ha : 0 ≤ α.getD idx 0 := by
    by_cases hlt : idx < α.length
    · rw [getD_lt hlt]; exact h0 _ (List.getElem_mem hlt)
    · simp [List.getD, hlt]
  have hwl : (widths net).length ≠ 0 := by
    simpa [widths] using hne
  have := prod_linearised ((List.range (widths net).length).map fun k =>
      β.getD (unitIndex (widths net) k (path.getD k 0)) 0) (by
        intro b hb
        obtain ⟨k, _, rfl⟩ := List.mem_map.1 hb
        rw [← hv]
        exact getD_isBin (by
          intro b hb
          obtain ⟨u, _, rfl⟩ := List.mem_map.1 hb
          cases u <;> simp) _) (by simpa using hwl) (α.getD idx 0) ha
  simp only [List.forall_mem_map, List.mem_range, List.length_map, List.length_range] at this
  rw [this]
  have e := pathProd_eq (K := K) pat path (by rw [hw]; exact hpath)
  rw [hw, hv] at e
  have hpl : pat.length = (widths net).length := by rw [← hw]; simp
  rw [e, hpl]

theorem dot_map_map {α : Type*} (q : List α) (f g : α → K) :
    dot (q.map f) (q.map g) = (q.map fun t => f t * g t).sum := by
  induction q with
  | nil => rfl
  | cons a q ih => simp [ih]

/-- C20: whenever the rows hold for a binary activation, `α^T M` is the gradient of the affine piece
selected by that activation. -/
theorem C20_gradient {net : Net K} {n : ℕ} {e : GradEnc K} {β α : Vec K} {pat : List (List Bool)}
    (h : outputGradient net = some e) (hok : net.Ok n) (hout : net.last.W.length = 1)
    (hβ : binToPattern (widths net) β = some pat) (hα : α.length = (widths net).prod)
    (h0 : ∀ a ∈ α, 0 ≤ a) (hrows : ∀ r ∈ e.rows, r.val [] α β ≤ r.rhs) :
    net.IsJac n pat [vecMat n α e.M] := by
  obtain ⟨hw, hv⟩ := C19_right hβ
  have hp : PatFits net.hidden pat := patFits_of_widths hw
  have halpha := (C20_alpha h hok hβ h0).1 hrows
  obtain ⟨q, hq, hM, hq1, hq2, -, -, -, hsum⟩ := outputGradient_spec h hok hp
  have hcols : HasCols e.M n := by
    rw [hM]
    intro r hr
    obtain ⟨pg, hpg, rfl⟩ := List.mem_map.1 hr
    have : pg.2.getD 0 [] ∈ pg.2 := by
      have := hq1 pg hpg
      rw [getD_lt (by omega)]; exact List.getElem_mem _
    exact (hq2 pg hpg).2 _ this
  refine ⟨?_, by simp [hout], ?_⟩
  · intro r hr
    rw [List.mem_singleton] at hr
    rw [hr, length_vecMat n _ _ hcols]
  · intro v hv'
    have hαq : α = q.map fun pg => pathProd pat pg.1 := by
      have hpaths := (paths_spec (widths net)).1
      have hql : q.length = (widths net).prod := by
        have e1 := congrArg List.length hpaths
        have e2 := congrArg List.length hq
        simp only [List.length_map, List.length_range] at e1 e2
        omega
      apply vec_ext (by simp [hα, hql])
      intro i hi
      have hi' : i < q.length := by omega
      have e := congrArg (fun l => l[i]?) hpaths
      rw [← hq] at e
      simp only [List.map_map, List.getElem?_map, List.getElem?_range (show i < (widths net).prod by omega),
        List.getElem?_eq_getElem hi', Option.map_some, Option.some.injEq, Function.comp] at e
      rw [halpha _ _ e]
      simp [List.getD, hi']
    have hd : (net.dir pat v).length = 1 := by simp [Net.dir, hout]
    apply vec_ext (by simp [hd])
    intro i hi
    have hi : i = 0 := by simp at hi; omega
    subst hi
    rw [← hsum v 0 (by omega), getD_matVec]
    simp only [List.getD_cons_zero]
    rw [dot_vecMat n _ _ _ hcols, hαq, hM, matVec, List.map_map, dot_map_map, qsum]
    rfl

/-- C20: for every binary activation the rows can be satisfied, by a binary `α`. -/
theorem C20_feasible {net : Net K} {n : ℕ} {e : GradEnc K} {β : Vec K} {pat : List (List Bool)}
    (h : outputGradient net = some e) (hok : net.Ok n) (hβ : binToPattern (widths net) β = some pat) :
    ∃ α : Vec K, α.length = (widths net).prod ∧ (∀ a ∈ α, a = 0 ∨ a = 1) ∧
      ∀ r ∈ e.rows, r.val [] α β ≤ r.rhs := by
  have hbin : ∀ (pat : List (List Bool)) (path : List ℕ),
      (pathProd pat path : K) = 0 ∨ (pathProd pat path : K) = 1 := by
    intro pat
    induction pat with
    | nil => intro path; simp [pathProd]
    | cons p ps ih =>
      intro path
      cases path with
      | nil => simp [pathProd]
      | cons i is =>
        simp only [pathProd, ind]
        rcases ih is with h | h <;> split <;> simp [h]
  refine ⟨(pathsFrom [[]] (widths net)).map (pathProd pat), ?_, ?_, ?_⟩
  · have := congrArg List.length (paths_spec (widths net)).1
    simpa using this
  · intro a ha
    obtain ⟨p, _, rfl⟩ := List.mem_map.1 ha
    exact hbin pat p
  · refine (C20_alpha h hok hβ ?_).2 ?_
    · intro a ha
      obtain ⟨p, _, rfl⟩ := List.mem_map.1 ha
      rcases hbin pat p with h | h <;> simp [h]
    · intro path idx hi
      have hpaths := (paths_spec (widths net)).1
      have e := congrArg (fun l => l[idx]?) hpaths
      simp only [List.getElem?_map, List.getElem?_range (C19_index_lt hi), Option.map_some] at e
      obtain ⟨p, hp, hp'⟩ := Option.map_eq_some_iff.1 e
      have := C19_index_injective hp' hi
      subst this
      simp [List.getD, hp]

theorem gradQueue_isSome (last : Lin K) : ∀ (hs : List (Lin K × Act K)) (q : List (List ℕ × Mat K)),
    (gradQueue q hs last).isSome ↔ ∀ p ∈ hs, p.2 = .relu := by
  intro hs
  induction hs with
  | nil => intro q; simp [gradQueue]
  | cons lp hs ih =>
    obtain ⟨l, a⟩ := lp
    intro q
    cases hs with
    | nil => cases a <;> simp [gradQueue]
    | cons lp2 hs =>
      obtain ⟨l2, a2⟩ := lp2
      cases a with
      | relu =>
        simp only [gradQueue]
        rw [ih]; simp
      | leaky c => simp [gradQueue]

/-- C20: the function accepts exactly the networks with at least one hidden layer, only ReLU
activations and one output (the last is not checked if some layer has no unit). -/
theorem C20_accepts {net : Net K} {n : ℕ} (hok : net.Ok n) (hw : ∀ w ∈ widths net, 0 < w) :
    (outputGradient net).isSome ↔ net.hidden ≠ [] ∧ (∀ p ∈ net.hidden, p.2 = .relu) ∧
      net.last.W.length = 1 := by
  have hprod : 0 < (widths net).prod := by
    revert hw
    generalize widths net = ws
    induction ws with
    | nil => simp
    | cons w ws ih =>
      intro h
      rw [List.prod_cons]
      exact Nat.mul_pos (h w (by simp)) (ih fun v hv => h v (List.mem_cons_of_mem _ hv))
  constructor
  · intro h
    obtain ⟨e, he⟩ := Option.isSome_iff_exists.1 h
    obtain ⟨q, h1, -, h3, h4, -, h6, h7, -⟩ := outputGradient_spec
      (pat := (widths net).map fun w => List.replicate w true) he hok
      (patFits_of_widths (by simp [Function.comp_def, widths]))
    refine ⟨h7, h6, ?_⟩
    have hl := congrArg List.length (paths_spec (widths net)).1
    rw [← h1] at hl
    simp only [List.length_map, List.length_range] at hl
    have hm : q[0] ∈ q := List.getElem_mem (show 0 < q.length by omega)
    rw [← (h4 _ hm).1, h3 _ hm]
  · rintro ⟨h1, h2, h3⟩
    unfold outputGradient
    simp only
    split
    · rename_i hh; exact absurd hh h1
    · rename_i l a hs hhid
      obtain ⟨q, hq⟩ := Option.isSome_iff_exists.1 ((gradQueue_isSome net.last net.hidden
        [([], l.W)]).2 h2)
      rw [hq]
      simp only [Option.bind_some]
      have hok' := hok.1
      rw [hhid] at hok'
      obtain ⟨s1, s2, -, -⟩ := gradQueue_spec n net.last hok.2 rfl
        ((widths net).map fun w => List.replicate w true) net.hidden n 0 [([], l.W)] q
        h1 hok.1 hq (by simp)
        (by simp only [List.mem_singleton, forall_eq, hhid, List.map_cons, List.headD_cons, true_and]
            rw [← hok'.1]; exact hok'.2.1.1)
        (patFits_of_widths (by simp [Function.comp_def, widths]))
      refine (gradFill_isSome _ _ q _ ?_).2 ?_
      · intro pg hpg
        refine (C19_index_accepts _ _).2 ((paths_spec _).2.1 _ ?_)
        have : pg.1 ∈ q.map Prod.fst := List.mem_map.2 ⟨pg, hpg, rfl⟩
        rw [s1] at this
        simpa using this
      · intro pg hpg
        rw [(s2 pg hpg).1, h3]

/-- A network with two ReLU layers and one output. -/
def exNet1 : Net ℚ :=
  { hidden := [(⟨2, [[1, 2], [-1, 1]], some [0, 1]⟩, .relu), (⟨2, [[1, -1], [2, 1]], none⟩, .relu)]
    last := ⟨2, [[2, 5]], some [1]⟩ }

theorem exNet1_ok : exNet1.Ok 2 := by
  simp [exNet1, Net.Ok, HidOk, Lin.Ok, HasCols, Lin.b, zeros]

/-- The hypotheses of C20 are met. -/
example : ∃ e pat α, outputGradient exNet1 = some e ∧
    binToPattern (widths exNet1) ([1, 0, 1, 1] : Vec ℚ) = some pat ∧ α.length = 4 ∧
    (∀ r ∈ e.rows, r.val [] α [1, 0, 1, 1] ≤ r.rhs) ∧ exNet1.dir pat [1, 1] = [36] ∧
    exNet1.IsJac 2 pat [vecMat 2 α e.M] := by
  obtain ⟨e, he⟩ := Option.isSome_iff_exists.1 ((C20_accepts exNet1_ok
    (by simp [widths, exNet1])).2 ⟨by simp [exNet1], by simp [exNet1], rfl⟩)
  have hb : binToPattern (widths exNet1) ([1, 0, 1, 1] : Vec ℚ) = some [[true, false], [true, true]] := by
    norm_num [binToPattern, splitBin, slice, widths, exNet1]
  obtain ⟨α, h1, h2, h3⟩ := C20_feasible he exNet1_ok hb
  refine ⟨e, _, α, he, hb, h1, h3, ?_, C20_gradient he exNet1_ok rfl hb h1 ?_ h3⟩
  · norm_num [Net.dir, exNet1, dirHid, matVec, Act.gain, Act.slope]
  · intro a ha
    rcases h2 a ha with h | h <;> simp [h]

/-! ## C21 -/

/-- C21: with any bounds, every feasible point with binary activation `β` outputs the directional
derivative, along the input, of the piece selected by `β`. -/
theorem C21_sound {net : Net K} {n : ℕ} {wz : List (Vec K × Vec K)} {c : MIC K} {y s β : Vec K}
    {pat : List (List Bool)} (h : gradTimesVecBounds net n wz = some c) (hok : net.Ok n)
    (hwz : wz.length = net.hidden.length) (hβ : binToPattern (widths net) β = some pat)
    (hf : c.Feas y s β) : c.out y s β = net.dir pat y := by
  obtain ⟨hw, hv⟩ := C19_right hβ
  have hp : PatFits net.hidden pat := patFits_of_widths hw
  rw [← hv] at hf
  obtain ⟨rfl, -⟩ := (gradTimesVecBounds_feas h hok hwz hp).1 hf
  exact gradTimesVecBounds_out h hok hp

/-- C21: with the interval bounds, for every binary activation and every vector in the box, the
constraints are satisfiable, and the output is exactly the directional derivative of the piece. -/
theorem C21_exact {net : Net K} {n : ℕ} {lo up : Vec K} {c : MIC K} {y β w : Vec K}
    {pat : List (List Bool)} (h : gradTimesVec net n lo up = some c) (hok : net.Ok n)
    (hβ : binToPattern (widths net) β = some pat) (hy : InBox lo up y) :
    (∃ s, c.Feas y s β ∧ c.out y s β = w) ↔ w = net.dir pat y := by
  obtain ⟨hw, hv⟩ := C19_right hβ
  have hp : PatFits net.hidden pat := patFits_of_widths hw
  unfold gradTimesVec at h
  split at h
  · rename_i hl
    obtain ⟨wz, hwz, hc⟩ := Option.bind_eq_some_iff.1 h
    obtain ⟨hlen, hok2⟩ := wzBoundsIA_sound net.hidden pat n lo up y wz hok.1 hp hwz hy
      (by have := hy.1; omega)
    constructor
    · rintro ⟨s, hf, rfl⟩
      exact C21_sound hc hok hlen hβ hf
    · rintro rfl
      refine ⟨(dirPost net.hidden pat y).flatten, ?_, gradTimesVecBounds_out hc hok hp⟩
      rw [← hv]
      exact (gradTimesVecBounds_feas hc hok hlen hp).2 ⟨rfl, hok2⟩
  · cases h

/-- The hypotheses of C21 are met, with a leaky layer and a negative direction. -/
example : ∃ c, gradTimesVec exNet 2 [-1, -1] [1, 1] = some c ∧
    ∃ s, c.Feas [1, -1] s [1, 1, 0] ∧ c.out [1, -1] s [1, 1, 0] = [1 / 5, 3 / 10] := by
  have hb : binToPattern (widths exNet) ([1, 1, 0] : Vec ℚ) = some [[true, true], [false]] := by
    norm_num [binToPattern, splitBin, slice, widths, exNet]
  have hs : (gradTimesVec exNet 2 [-1, -1] [1, 1]).isSome := by
    norm_num [gradTimesVec, exNet, wzBoundsIA, wzRow, zNext, collect, gradTimesVecBounds, gradHid,
      gradLayer, gradNeuron, gradScalar, replaceBinaryContinuousProduct, leakyGradTimesX,
      List.range_succ]
  obtain ⟨c, hc⟩ := Option.isSome_iff_exists.1 hs
  have hbox : InBox [-1, -1] [1, 1] ([1, -1] : Vec ℚ) :=
    ⟨rfl, rfl, fun i hi => by have : i < 2 := hi; interval_cases i <;> norm_num⟩
  refine ⟨c, hc, (C21_exact hc exNet_ok hb hbox).2 ?_⟩
  norm_num [Net.dir, exNet, dirHid, matVec, Act.gain, Act.slope]

/-! ## C22 -/

/-- C22: with a tolerance, the matrices returned are exactly the Jacobians of the pieces whose pattern
is compatible with the input up to the tolerance. -/
theorem C22_tol {net : Net K} {n : ℕ} {x : Vec K} {tol : K} {Ds : List (Mat K)}
    (h : reluNetworkGradient tol net n x = some Ds) (hok : net.Ok n) (D : Mat K) :
    D ∈ Ds ↔ ∃ pat, List.Forall₂ (List.Forall₂ (TolOk tol)) pat (preacts net.hidden x) ∧
      net.IsJac n pat D := by
  unfold reluNetworkGradient at h
  split at h
  · rename_i hx
    cases h
    rw [List.mem_map]
    constructor
    · rintro ⟨E, hE, rfl⟩
      obtain ⟨I, hI, pat, hp, h1, h2, h3⟩ := (gradLayers_mem tol hx.2 n net.hidden n x [eye n] E hok.1
        (by simp [hasCols_eye])).1 hE
      rw [List.mem_singleton] at hI
      subst hI
      refine ⟨pat, hp, hasCols_matMul _ _ h1, length_matMul _ _ _, fun v hv => ?_⟩
      rw [matVec_matMul n _ _ _ h1, h3 v hv, matVec_eye n v hv]
      rfl
    · rintro ⟨pat, hp, h1, h2, h3⟩
      have hfit : PatFits net.hidden pat := by
        have : ∀ (hs : List (Lin K × Act K)) (pat : List (List Bool)) (x : Vec K),
            (∀ l ∈ hs, l.1.Ok) → List.Forall₂ (List.Forall₂ (TolOk tol)) pat (preacts hs x) →
            PatFits hs pat := by
          intro hs
          induction hs with
          | nil => intro pat x _ h; cases h; exact List.Forall₂.nil
          | cons lp hs ih =>
            obtain ⟨l, a⟩ := lp
            intro pat x hb h
            obtain ⟨p, ps, hp, hps, rfl⟩ := List.forall₂_cons_right_iff.1 h
            refine List.Forall₂.cons ?_ (ih _ _ (fun l hl => hb l (List.mem_cons_of_mem _ hl)) hps)
            rw [hp.length_eq]
            exact Lin.length_eval (hb (l, a) (by simp)) x
        exact this _ _ _ (hidOk_all _ _ hok.1) hp
      obtain ⟨p, hp'⟩ := Option.isSome_iff_exists.1 ((C17_accepts net n pat).2 (by
        rw [List.take_of_length_le (le_of_eq hfit.length_eq)]; exact hfit))
      obtain ⟨⟨P, q, A, b⟩, hr, rfl⟩ := Option.map_eq_some_iff.1 hp'
      obtain ⟨-, -, -, h4, h5, h6, h7⟩ := rgapHid_spec n _ _ _ _ _ _ _ _ _ hr hok.1 (hasCols_eye n)
        (by simp) (by simp)
      refine ⟨A, (gradLayers_mem tol hx.2 n net.hidden n x [eye n] A hok.1
        (by simp [hasCols_eye])).2 ⟨eye n, by simp, pat, hp, h5, h6, fun v _ => h4 v⟩, ?_⟩
      have hjac := C17_jacobian hp' hok
      refine mat_ext hjac.1 h1 fun v hv => ?_
      rw [hjac.2.2 v hv, h3 v hv]
  · cases h

/-- C22: with tolerance 0, the matrices returned are exactly the Jacobians of the pieces whose
pattern is compatible with the input. -/
theorem C22_exact {net : Net K} {n : ℕ} {x : Vec K} {Ds : List (Mat K)}
    (h : reluNetworkGradient 0 net n x = some Ds) (hok : net.Ok n) (D : Mat K) :
    D ∈ Ds ↔ ∃ pat, Realises net.hidden x pat ∧ net.IsJac n pat D := by
  rw [C22_tol h hok]
  have : (TolOk 0 : Bool → K → Prop) = SignOk := by
    funext b y
    exact propext (tolOk_zero b y)
  rw [this]
  rfl

/-- C22: there is always at least one, and the gradients are those returned by
ReLUGivenActivationPattern for the patterns enumerated by compute_all_relu_activation_patterns. -/
theorem C22_consistent {net : Net K} {n : ℕ} {x : Vec K} {Ds : List (Mat K)}
    (h : reluNetworkGradient 0 net n x = some Ds) (hok : net.Ok n) (D : Mat K) :
    D ∈ Ds ↔ ∃ pat ∈ allPatterns net.hidden x, ∃ p, reluGivenPattern net n pat = some p ∧ p.gT = D := by
  rw [C22_exact h hok]
  constructor
  · rintro ⟨pat, hr, hj⟩
    have hfit := patFits_of_realises (hidOk_all _ _ hok.1) hr
    obtain ⟨p, hp⟩ := Option.isSome_iff_exists.1 ((C17_accepts net n pat).2 (by
      rw [List.take_of_length_le (le_of_eq hfit.length_eq)]; exact hfit))
    refine ⟨pat, (C18_mem _ _ _).2 hr, p, hp, ?_⟩
    have hjac := C17_jacobian hp hok
    exact mat_ext hjac.1 hj.1 fun v hv => by rw [hjac.2.2 v hv, hj.2.2 v hv]
  · rintro ⟨pat, hr, p, hp, rfl⟩
    exact ⟨pat, (C18_mem _ _ _).1 hr, C17_jacobian hp hok⟩

/-- The hypotheses of C22 are met at a kink of the first layer; both gradients are returned. -/
example : ∃ Ds, reluNetworkGradient 0 exNet 2 [0, 0] = some Ds ∧
    [[2 / 5, 1 / 5], [3 / 5, 3 / 10]] ∈ Ds ∧ [[1 / 5, -1 / 5], [3 / 10, -3 / 10]] ∈ Ds := by
  obtain ⟨Ds, hD⟩ : ∃ Ds, reluNetworkGradient 0 exNet 2 [0, 0] = some Ds := by
    simp [reluNetworkGradient]
  refine ⟨Ds, hD, (C22_exact hD exNet_ok _).2 ⟨[[true, true], [false]], ?_, ?_⟩,
    (C22_exact hD exNet_ok _).2 ⟨[[false, true], [false]], ?_, ?_⟩⟩
  · norm_num [exNet, Realises, preacts, Lin.eval, Lin.b, vadd, matVec, Act.f, relu, zeros, SignOk]
  · refine ⟨by simp [HasCols], rfl, fun v hv => ?_⟩
    obtain ⟨a, b, rfl⟩ : ∃ a b, v = [a, b] := by
      match v, hv with
      | [a, b], _ => exact ⟨a, b, rfl⟩
    simp [Net.dir, exNet, dirHid, matVec, Act.gain, Act.slope]
    constructor <;> ring
  · norm_num [exNet, Realises, preacts, Lin.eval, Lin.b, vadd, matVec, Act.f, relu, zeros, SignOk]
  · refine ⟨by simp [HasCols], rfl, fun v hv => ?_⟩
    obtain ⟨a, b, rfl⟩ : ∃ a b, v = [a, b] := by
      match v, hv with
      | [a, b], _ => exact ⟨a, b, rfl⟩
    simp [Net.dir, exNet, dirHid, matVec, Act.gain, Act.slope]
    constructor <;> ring

end NNL.Props
