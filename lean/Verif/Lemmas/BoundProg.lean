import Verif.Model.BoundProg
import Verif.Lemmas.ContGrad
import Verif.Lemmas.Loose

/-!
# Bounds computed by the solver contain every feasible point
-/

set_option linter.unusedSectionVars false

namespace NNL.Model

open NNL NNL.Spec NNL.Props

variable {K : Type*} [Field K] [LinearOrder K] [IsStrictOrderedRing K]

/-- The value which the solver reports bounds the objective at every feasible point: from above when it
maximises, from below when it minimises. -/
def SolverBounds (solve : Solver K) : Prop :=
  ∀ m val, solve m = some val → ∀ v, m.Feas v →
    (m.obj.map MilpObj.maximize = some true → m.objVal v ≤ val) ∧
      (m.obj.map MilpObj.maximize = some false → val ≤ m.objVal v)

/-- `m'` has the variables and the constraints of `m`. -/
structure SameP (m m' : Mip K) : Prop where
  wf : m'.WF
  n : m'.n = m.n
  feas : ∀ v, m'.Feas v ↔ m.Feas v

theorem SameP.refl {m : Mip K} (h : m.WF) : SameP m m := ⟨h, rfl, fun _ => Iff.rfl⟩

theorem SameP.trans {a b c : Mip K} (h : SameP a b) (h' : SameP b c) : SameP a c :=
  ⟨h'.wf, h'.n.trans h.n, fun v => (h'.feas v).trans (h.feas v)⟩

theorem rangeBy_ok {solve : Solver K} (hs : SolverBounds solve) {m m' : Mip K} (hw : m.WF) {c : Vec K} {x : List ℕ}
    {lo up : K} (h : m.rangeBy solve c x = some (m', lo, up)) (hl : c.length = x.length) (hn : x.Nodup)
    (hx : ∀ i ∈ x, i < m.n) :
    SameP m m' ∧ ∀ v, m.Feas v → lo ≤ dot c (x.map v) ∧ dot c (x.map v) ≤ up := by
  obtain ⟨m1, h1, f1, o1, e1⟩ := obj_set m hw [c] [x] 0 true (by simp [hl]) (by simpa using hn) (by simpa using hx)
  have w1 := setObjective_wf h1 hw
  have n1 := setObjective_n h1
  obtain ⟨m2, h2, f2, o2, e2⟩ := obj_set m1 w1 [c] [x] 0 false (by simp [hl]) (by simpa using hn)
    (by simpa [n1] using hx)
  have w2 := setObjective_wf h2 w1
  have n2 := setObjective_n h2
  unfold Mip.rangeBy at h
  simp only [Option.bind_eq_bind, h1, Option.bind_some, h2] at h
  obtain ⟨u, hu, h⟩ := Option.bind_eq_some_iff.1 h
  obtain ⟨l, hl', h⟩ := Option.bind_eq_some_iff.1 h
  cases h
  refine ⟨⟨w2, n2.trans n1, fun v => (f2 v).trans (f1 v)⟩, fun v hv => ⟨?_, ?_⟩⟩
  · have := (hs _ _ hl' v ((f2 v).2 ((f1 v).2 hv))).2 o2
    rw [e2] at this
    simpa [objExpr] using this
  · have := (hs _ _ hu v ((f1 v).2 hv)).1 o1
    rw [e1] at this
    simpa [objExpr] using this

/-- The bounds contain the entries of the vector. -/
def BetweenB (b : Vec K × Vec K) (u : Vec K) : Prop :=
  b.1.length = u.length ∧ b.2.length = u.length ∧
    ∀ j, j < u.length → b.1.getD j 0 ≤ u.getD j 0 ∧ u.getD j 0 ≤ b.2.getD j 0

theorem betweenB_nil : BetweenB (unzipB ([] : List (K × K))) [] := ⟨rfl, rfl, by simp⟩

theorem betweenB_cons {lo up t : K} {b : List (K × K)} {u : Vec K} (h : lo ≤ t ∧ t ≤ up)
    (hb : BetweenB (unzipB b) u) : BetweenB (unzipB ((lo, up) :: b)) (t :: u) := by
  obtain ⟨h1, h2, h3⟩ := hb
  refine ⟨by simpa [unzipB] using h1, by simpa [unzipB] using h2, fun j hj => ?_⟩
  cases j with
  | zero => simpa [unzipB] using h
  | succ j => simpa [unzipB] using h3 j (by simpa using hj)

theorem varRanges_ok {solve : Solver K} (hs : SolverBounds solve) : ∀ (is : List ℕ) {m m' : Mip K} {b : List (K × K)},
    m.WF → varRanges solve is m = some (m', b) → (∀ i ∈ is, i < m.n) →
    SameP m m' ∧ ∀ v, m.Feas v → BetweenB (unzipB b) (is.map v) := by
  intro is
  induction is with
  | nil =>
    intro m m' b hw h _
    cases h
    exact ⟨SameP.refl hw, fun v _ => betweenB_nil⟩
  | cons i is ih =>
    intro m m' b hw h hi
    rw [varRanges] at h
    obtain ⟨⟨m1, lo, up⟩, h1, h⟩ := Option.bind_eq_some_iff.1 h
    obtain ⟨⟨m2, b2⟩, h2, h⟩ := Option.bind_eq_some_iff.1 h
    cases h
    obtain ⟨s1, r1⟩ := rangeBy_ok hs hw h1 rfl (by simp) (by simpa using hi i (by simp))
    obtain ⟨s2, r2⟩ := ih s1.wf h2 (fun j hj => by rw [s1.n]; exact hi j (by simp [hj]))
    refine ⟨s1.trans s2, fun v hv => ?_⟩
    refine betweenB_cons ?_ (r2 v ((s1.feas v).2 hv))
    simpa [dot] using r1 v hv

theorem rowRanges_ok {solve : Solver K} (hs : SolverBounds solve) {z : List ℕ} (hn : z.Nodup) :
    ∀ (W : Mat K) {m m' : Mip K} {b : List (K × K)}, m.WF → rowRanges solve z W m = some (m', b) →
      HasCols W z.length → (∀ i ∈ z, i < m.n) →
      SameP m m' ∧ ∀ v, m.Feas v → BetweenB (unzipB b) (matVec W (z.map v)) := by
  intro W
  induction W with
  | nil =>
    intro m m' b hw h _ _
    cases h
    exact ⟨SameP.refl hw, fun v _ => betweenB_nil⟩
  | cons w W ih =>
    intro m m' b hw h hc hi
    rw [rowRanges] at h
    obtain ⟨⟨m1, lo, up⟩, h1, h⟩ := Option.bind_eq_some_iff.1 h
    obtain ⟨⟨m2, b2⟩, h2, h⟩ := Option.bind_eq_some_iff.1 h
    cases h
    obtain ⟨s1, r1⟩ := rangeBy_ok hs hw h1 (hc w (by simp)) hn hi
    obtain ⟨s2, r2⟩ := ih s1.wf h2 (fun q hq => hc q (by simp [hq])) (fun j hj => by rw [s1.n]; exact hi j hj)
    exact ⟨s1.trans s2, fun v hv => betweenB_cons (r1 v hv) (r2 v ((s1.feas v).2 hv))⟩

/-! ### One unit -/

theorem gradScalar_lens {a : Act K} {lo up : K} {p : Rows K} (h : gradScalar a lo up = some p) :
    p.Ax.length = p.rhs.length ∧ p.As.length = p.rhs.length ∧ p.Aa.length = p.rhs.length := by
  cases a with
  | relu =>
    simp only [gradScalar, replaceBinaryContinuousProduct] at h
    split at h
    · cases h; simp
    · cases h
  | leaky c =>
    simp only [gradScalar, leakyGradTimesX] at h
    split at h
    · cases h
      split_ifs <;> simp [Rows.neg]
    · cases h

theorem unitRow_step (m : Mip K) (hw : m.WF) {p : Rows K}
    (hlen : p.Ax.length = p.rhs.length ∧ p.As.length = p.rhs.length ∧ p.Aa.length = p.rhs.length) (r : Vec K)
    (x : List ℕ) (s a : ℕ) (hr : r.length = x.length) (hx : ∀ i ∈ x, i < m.n) (hs : s < m.n) (ha : a < m.n) :
    ∃ m', m.addMConstr [⟨x.length, p.Ax.map fun c => vsmul c r⟩, colT p.As, colT p.Aa] [x, [s], [a]] .le
        p.rhs = some m' ∧ Step m m' 0 fun v => p.Holds (dot r (x.map v)) (v s) (v a) := by
  obtain ⟨m', h⟩ := addMConstr_isSome m (A := [⟨x.length, p.Ax.map fun c => vsmul c r⟩, colT p.As, colT p.Aa])
    (x := [x, [s], [a]]) (sense := .le) (b := p.rhs) rfl (by simp) (by simp [colT, hlen])
    (by simp [colT]) (by
      simp only [List.flatten_cons, List.flatten_nil, List.append_nil, List.mem_append, List.mem_singleton]
      rintro i (hi | rfl | rfl)
      · exact hx i hi
      · exact hs
      · exact ha)
  refine ⟨m', h, (step_addMConstr h hw).congr rfl fun v => ?_⟩
  unfold Rows.Holds
  refine forall_congr' fun i => forall_congr' fun hi => ?_
  have h1 : i < p.Ax.length := by omega
  have h2 : i < p.As.length := by omega
  have h3 : i < p.Aa.length := by omega
  rw [dot_catRow_cons _ _ _ _ _ _ (by
      intro q hq
      obtain ⟨c, -, rfl⟩ := List.mem_map.1 hq
      simp [hr]) rfl (by simpa using h1),
    dot_catRow_cons _ _ _ _ _ _ (by intro q hq; simp [colT] at hq; obtain ⟨c, -, rfl⟩ := hq; rfl) rfl
      (by simpa [colT] using h2),
    dot_catRow_cons _ _ _ _ _ _ (by intro q hq; simp [colT] at hq; obtain ⟨c, -, rfl⟩ := hq; rfl) rfl
      (by simpa [colT] using h3)]
  simp [Sense.Rel, colT, List.getD, h1, h2, h3, dot_vsmul_left, add_assoc]

/-- The rows admit the product with the slope chosen by the flag. -/
theorem gradScalar_holds {a : Act K} {lo up : K} {p : Rows K} (h : gradScalar a lo up = some p) (b : Bool) {t : K}
    (ht : lo ≤ t ∧ t ≤ up) : p.Holds t (a.gain b * t) (bit b) := by
  have hb : (bit b : K) = 0 ∨ (bit b : K) = 1 := by cases b <;> simp [bit]
  cases a with
  | relu =>
    simp only [gradScalar] at h
    rw [C01_product_exact _ _ _ _ _ p h hb]
    refine ⟨ht, ?_⟩
    cases b <;> simp [bit, Act.gain, Act.slope]
  | leaky c =>
    simp only [gradScalar] at h
    by_cases hc : c = 1
    · subst hc
      rw [C04_leaky_gradient_slope_one _ _ _ _ _ p h]
      cases b <;> simp [Act.gain, Act.slope]
    · rw [C04_leaky_gradient_exact _ _ _ _ _ _ p hc h hb]
      refine ⟨ht, ?_⟩
      cases b <;> simp [bit, Act.gain, Act.slope]

/-- The loop over the units: every feasible point of the program, with its flags, lies within the bounds and
extends to the enlarged program. -/
theorem wzUnits_ok {solve : Solver K} (hs : SolverBounds solve) (a : Act K) {z : List ℕ} (hn : z.Nodup) :
    ∀ (W : Mat K) (beta : List ℕ) {m : Mip K} {u : WzState K}, m.WF → wzUnits solve a z W beta m = some u →
      HasCols W z.length → (∀ i ∈ z, i < m.n) → (∀ i ∈ beta, i < m.n) →
      u.m.WF ∧ u.m.n = m.n + W.length ∧ u.z = List.range' m.n W.length ∧
        (∀ v, u.m.Feas v → m.Feas v ∧ BetweenB (unzipB u.zb) (u.z.map v)) ∧
        ∀ v p, m.Feas v → p.length = W.length → (beta.take W.length).map v = p.map bit →
          BetweenB (unzipB u.wz) (matVec W (z.map v)) ∧
          ∃ v', (∀ i, i < m.n → v' i = v i) ∧ u.m.Feas v' ∧
            u.z.map v' = List.zipWith (fun b y => a.gain b * y) p (matVec W (z.map v)) := by
  intro W
  induction W with
  | nil =>
    intro beta m u hw h _ _ _
    cases h
    refine ⟨hw, rfl, rfl, fun v hv => ⟨hv, betweenB_nil⟩, fun v p hv hp _ => ⟨betweenB_nil, v, fun _ _ => rfl, hv, ?_⟩⟩
    obtain rfl : p = [] := List.length_eq_zero_iff.1 hp
    rfl
  | cons w W ih =>
    intro beta m u hw h hc hz hb
    cases beta with
    | nil => cases h
    | cons b beta =>
      rw [wzUnits] at h
      obtain ⟨⟨m1, lo, up⟩, h1, h⟩ := Option.bind_eq_some_iff.1 h
      obtain ⟨p, h2, h⟩ := Option.bind_eq_some_iff.1 h
      obtain ⟨s1, r1⟩ := rangeBy_ok hs hw h1 (hc w (by simp)) hn hz
      obtain ⟨m2, h3, S2⟩ := free_addVars m1 s1.wf 1
      have e1 : List.range' m1.n 1 = [m1.n] := rfl
      rw [e1] at h3
      have n2 : m2.n = m.n + 1 := by rw [S2.n, s1.n]
      have hbm : b < m.n := hb b (by simp)
      obtain ⟨m3, h4, S3⟩ := unitRow_step m2 S2.wf (gradScalar_lens h2) w z m1.n b (hc w (by simp))
        (fun i hi => by have := hz i hi; omega) (by rw [n2, s1.n]; omega) (by omega)
      simp only [Option.bind_eq_bind, h3, Option.bind_some, h4] at h
      obtain ⟨⟨m4, zl, zu⟩, h5, h⟩ := Option.bind_eq_some_iff.1 h
      obtain ⟨q, h6, h⟩ := Option.bind_eq_some_iff.1 h
      cases h
      have n3 : m3.n = m.n + 1 := by rw [S3.n, n2]
      obtain ⟨s4, r4⟩ := rangeBy_ok hs S3.wf h5 rfl (by simp) (by simp [n3, s1.n])
      have n4 : m4.n = m.n + 1 := by rw [s4.n, n3]
      obtain ⟨i1, i2, i3, i4, i5⟩ := ih beta s4.wf h6 (fun q hq => hc q (by simp [hq]))
        (fun i hi => by have := hz i hi; omega) (fun i hi => by have := hb i (by simp [hi]); omega)
      have hmz : ∀ v v' : ℕ → K, (∀ i, i < m.n → v' i = v i) → z.map v' = z.map v := fun v v' hv =>
        List.map_congr_left fun i hi => hv i (hz i hi)
      refine ⟨i1, by simp only [i2, n4, List.length_cons]; omega, ?_, ?_, ?_⟩
      · simp only [i3, n4, s1.n, List.length_cons]
        rw [List.range'_succ]
        rfl
      · intro v hv
        obtain ⟨a1, a2⟩ := i4 v hv
        have f3 := (s4.feas v).1 a1
        have f2 := ((S3.feas v).1 f3).1
        refine ⟨(s1.feas v).1 ((S2.feas v).1 f2).1, ?_⟩
        have := r4 v f3
        exact betweenB_cons (by simpa [dot] using this) a2
      · intro v pp hv hp hbp
        cases pp with
        | nil => simp at hp
        | cons β pp =>
          simp only [List.length_cons, List.take_succ_cons, List.map_cons, List.cons.injEq] at hbp
          obtain ⟨hβ, hbp⟩ := hbp
          have r1v := r1 v hv
          set y := dot w (z.map v) with hy
          set v1 := upd v m.n [a.gain β * y] with hv1
          have ag : ∀ i, i < m.n → v1 i = v i := fun i hi => upd_lt _ _ _ _ hi
          have vn : v1 m.n = a.gain β * y := by simp [hv1, upd]
          have f0 : m.Feas v1 := (hw.feas_congr ag).2 hv
          have f2 : m2.Feas v1 := (S2.feas v1).2 ⟨(s1.feas v1).2 f0, trivial⟩
          have f3 : m3.Feas v1 := by
            refine (S3.feas v1).2 ⟨f2, ?_⟩
            rw [hmz v v1 ag, s1.n, vn, ag b hbm, hβ]
            exact gradScalar_holds h2 β r1v
          obtain ⟨j1, v', j2, j3, j4⟩ := i5 v1 pp ((s4.feas v1).2 f3) (by simpa using hp) (by
            rw [← hbp]
            refine List.map_congr_left fun i hi => ag i (hb i ?_)
            exact List.mem_cons_of_mem _ (List.mem_of_mem_take hi))
          rw [hmz v v1 ag] at j1 j4
          refine ⟨betweenB_cons r1v j1, v', fun i hi => by rw [j2 i (by omega), ag i hi], j3, ?_⟩
          have : v' m.n = a.gain β * y := by rw [j2 m.n (by omega), vn]
          simp only [List.map_append, List.map_cons, List.map_nil, s1.n, this, j4]
          rfl

/-! ### The layers -/

theorem wzHidden_ok {solve : Solver K} (hs : SolverBounds solve) {k' : ℕ} :
    ∀ (hid : List (Lin K × Act K)) (z beta : List ℕ) {m : Mip K} {q : WzLayers K}, m.WF →
      wzHidden solve hid z beta m = some q → HidOk z.length hid k' → z.Nodup → (∀ i ∈ z, i < m.n) →
      (∀ i ∈ beta, i < m.n) →
      q.m.WF ∧ q.z.Nodup ∧ q.z.length = k' ∧ (∀ i ∈ q.z, i < q.m.n) ∧ q.wz.length = hid.length ∧
        m.n ≤ q.m.n ∧ (∀ v, q.m.Feas v → m.Feas v) ∧
        ∀ v pat, m.Feas v → PatFits hid pat → beta.map v = patVec pat →
          List.Forall₂ BetweenB q.wz (dirPre hid pat (z.map v)) ∧
          List.Forall₂ BetweenB q.zb (dirPost hid pat (z.map v)) ∧
          ∃ v', (∀ i, i < m.n → v' i = v i) ∧ q.m.Feas v' ∧ q.z.map v' = dirHid hid pat (z.map v) := by
  intro hid
  induction hid with
  | nil =>
    intro z beta m q hw h hok hn hz hb
    cases h
    refine ⟨hw, hn, hok, hz, rfl, le_rfl, fun v hv => hv, fun v pat hv hp _ => ?_⟩
    cases hp
    exact ⟨.nil, .nil, v, fun _ _ => rfl, hv, rfl⟩
  | cons la hid ih =>
    obtain ⟨l, a⟩ := la
    intro z beta m q hw h hok hn hz hb
    rw [wzHidden] at h
    obtain ⟨u, h1, h⟩ := Option.bind_eq_some_iff.1 h
    obtain ⟨q', h2, h⟩ := Option.bind_eq_some_iff.1 h
    cases h
    obtain ⟨hin, hlok, hok'⟩ := hok
    have hcols' : HasCols l.W z.length := by rw [← hin]; exact hlok.1
    obtain ⟨u1, u2, u3, u4, u5⟩ := wzUnits_ok hs a hn l.W _ hw h1 hcols' hz
      (fun i hi => hb i (List.mem_of_mem_take hi))
    have uz : ∀ i ∈ u.z, m.n ≤ i ∧ i < u.m.n := fun i hi => by
      rw [u3, List.mem_range'_1] at hi
      omega
    obtain ⟨w1, w2, w3, w4, w5, w6, w7, w8⟩ := ih u.z (beta.drop l.W.length) u1 h2 (by rw [u3]; simpa using hok')
      (by rw [u3]; exact List.nodup_range') (fun i hi => (uz i hi).2)
      (fun i hi => by have := hb i (List.mem_of_mem_drop hi); omega)
    refine ⟨w1, w2, w3, w4, by simp [w5], by show m.n ≤ q'.m.n; omega, fun v hv => (u4 v (w7 v hv)).1, ?_⟩
    intro v pat hv hp hbp
    cases hp with
    | @cons p _ ps _ hpl hps =>
      have hpl : p.length = l.W.length := hpl
      rw [patVec_cons] at hbp
      have hbl : l.W.length ≤ beta.length := by
        have := congrArg List.length hbp
        simp at this
        omega
      have e1 : (beta.take l.W.length).map v = p.map bit := by
        rw [List.map_take, hbp, List.take_left' (by simp [hpl])]
        rfl
      have e2 : (beta.drop l.W.length).map v = patVec ps := by
        rw [List.map_drop, hbp, List.drop_left' (by simp [hpl])]
      obtain ⟨b1, v1, ag, f1, z1⟩ := u5 v p hv hpl (by rw [List.take_take, min_self]; exact e1)
      obtain ⟨c1, c2, v2, ag2, f2, z2⟩ := w8 v1 ps f1 hps (by
        rw [← e2]
        exact List.map_congr_left fun i hi => ag i (hb i (List.mem_of_mem_drop hi)))
      rw [z1] at c1 c2 z2
      refine ⟨.cons b1 c1, .cons ?_ c2, v2, fun i hi => by rw [ag2 i (by omega), ag i hi], f2, z2⟩
      rw [← z1]
      exact (u4 v1 f1).2

/-- `_compute_Wz_bounds_optimization` returns bounds of `z_i` and `W_i z_i` for every feasible point of the
program whose flags are a pattern. -/
theorem wzBoundsOpt_ok {solve : Solver K} (hs : SolverBounds solve) {net : Net K} {n : ℕ} (hok : net.Ok n) {m : Mip K}
    (hw : m.WF) {z0 beta : List ℕ} {q : WzOpt K} (h : wzBoundsOpt solve net m z0 beta = some q)
    (hl : z0.length = n) (hn : z0.Nodup) (hz : ∀ i ∈ z0, i < m.n) (hb : ∀ i ∈ beta, i < m.n) :
    q.m.WF ∧ m.n ≤ q.m.n ∧ q.wz.length = net.hidden.length ∧
      ∀ v pat, m.Feas v → PatFits net.hidden pat → beta.map v = patVec pat →
        BetweenB q.z0 (z0.map v) ∧ List.Forall₂ BetweenB q.zb (dirPost net.hidden pat (z0.map v)) ∧
        List.Forall₂ BetweenB q.wz (dirPre net.hidden pat (z0.map v)) ∧
        BetweenB q.last (net.dir pat (z0.map v)) ∧
        ∃ v', (∀ i, i < m.n → v' i = v i) ∧ q.m.Feas v' := by
  unfold wzBoundsOpt at h
  obtain ⟨⟨m1, b0⟩, h1, h⟩ := Option.bind_eq_some_iff.1 h
  obtain ⟨w, h2, h⟩ := Option.bind_eq_some_iff.1 h
  obtain ⟨⟨m3, e⟩, h3, h⟩ := Option.bind_eq_some_iff.1 h
  cases h
  obtain ⟨s1, r1⟩ := varRanges_ok hs z0 hw h1 hz
  obtain ⟨w1, w2, w3, w4, w5, w6, w7, w8⟩ := wzHidden_ok hs (k' := net.last.inF) net.hidden z0 beta s1.wf h2
    (by rw [hl]; exact hok.1) hn (by rw [s1.n]; exact hz) (by rw [s1.n]; exact hb)
  obtain ⟨s3, r3⟩ := rowRanges_ok hs w2 net.last.W w1 h3 (by rw [w3]; exact hok.2.1) w4
  refine ⟨s3.wf, by rw [s3.n]; have := s1.n; omega, w5, fun v pat hv hp hbp => ?_⟩
  obtain ⟨c1, c2, v', ag, f, zz⟩ := w8 v pat ((s1.feas v).2 hv) hp hbp
  refine ⟨r1 v hv, c2, c1, ?_, v', fun i hi => ag i (by rw [s1.n]; exact hi), (s3.feas v').2 f⟩
  have := r3 v' f
  rw [zz] at this
  exact this

end NNL.Model
