import Verif.Props.BoundProg
import Verif.Props.ContinuousRate
import Verif.Props.Accepts

/-!
# C137, continued: the computation of the bounds succeeds
-/

set_option linter.unusedSectionVars false

namespace NNL.Props

open NNL NNL.Spec NNL.Model

variable {K : Type*} [Field K] [LinearOrder K] [IsStrictOrderedRing K]

/-- The solver reports a value for every program with a feasible point and a bounded objective. -/
def SolverTotal (solve : Solver K) : Prop :=
  ∀ m : Mip K, (∃ mx, m.obj.map MilpObj.maximize = some mx) → (∃ v, m.Feas v) →
    (∃ b, ∀ v, m.Feas v → |m.objVal v| ≤ b) → ∃ val, solve m = some val

/-- The variable is bounded on the feasible set. -/
def VarBdd (m : Mip K) (i : ℕ) : Prop := ∃ b, ∀ v, m.Feas v → |v i| ≤ b

theorem dot_bdd (m : Mip K) : ∀ (c : Vec K) (x : List ℕ), (∀ i ∈ x, VarBdd m i) →
    ∃ b, ∀ v, m.Feas v → |dot c (x.map v)| ≤ b := by
  intro c
  induction c with
  | nil => intro x _; exact ⟨0, fun v _ => by simp [dot]⟩
  | cons a c ih =>
    intro x hx
    cases x with
    | nil => exact ⟨0, fun v _ => by simp [dot]⟩
    | cons i x =>
      obtain ⟨b1, h1⟩ := hx i (by simp)
      obtain ⟨b2, h2⟩ := ih x (fun j hj => hx j (by simp [hj]))
      refine ⟨|a| * b1 + b2, fun v hv => ?_⟩
      have e : dot (a :: c) ((i :: x).map v) = a * v i + dot c (x.map v) := by simp [dot]
      rw [e]
      refine (abs_add_le _ _).trans (add_le_add ?_ (h2 v hv))
      rw [abs_mul]
      exact mul_le_mul_of_nonneg_left (h1 v hv) (abs_nonneg a)

theorem rangeBy_some {solve : Solver K} (hT : SolverTotal solve) {m : Mip K} (hw : m.WF) {c : Vec K} {x : List ℕ}
    (hl : c.length = x.length) (hn : x.Nodup) (hx : ∀ i ∈ x, i < m.n) (hf : ∃ v, m.Feas v)
    (hb : ∀ i ∈ x, VarBdd m i) : ∃ m' lo up, m.rangeBy solve c x = some (m', lo, up) := by
  obtain ⟨b, hb⟩ := dot_bdd m c x hb
  obtain ⟨v, hv⟩ := hf
  obtain ⟨m1, h1, f1, o1, e1⟩ := obj_set m hw [c] [x] 0 true (by simp [hl]) (by simpa using hn) (by simpa using hx)
  obtain ⟨m2, h2, f2, o2, e2⟩ := obj_set m1 (setObjective_wf h1 hw) [c] [x] 0 false (by simp [hl])
    (by simpa using hn) (by simpa [setObjective_n h1] using hx)
  obtain ⟨u, hu⟩ := hT m1 ⟨_, o1⟩ ⟨v, (f1 v).2 hv⟩ ⟨b, fun w hw => by
    rw [e1]
    simpa [objExpr] using hb w ((f1 w).1 hw)⟩
  obtain ⟨l, hl'⟩ := hT m2 ⟨_, o2⟩ ⟨v, (f2 v).2 ((f1 v).2 hv)⟩ ⟨b, fun w hw => by
    rw [e2]
    simpa [objExpr] using hb w ((f1 w).1 ((f2 w).1 hw))⟩
  refine ⟨m2, l, u, ?_⟩
  unfold Mip.rangeBy
  simp only [Option.bind_eq_bind, h1, Option.bind_some, hu, h2, hl']

theorem SameP.bdd {m m' : Mip K} (h : SameP m m') {i : ℕ} (hb : VarBdd m i) : VarBdd m' i := by
  obtain ⟨b, hb⟩ := hb
  exact ⟨b, fun v hv => hb v ((h.feas v).1 hv)⟩

theorem SameP.ex {m m' : Mip K} (h : SameP m m') (hf : ∃ v, m.Feas v) : ∃ v, m'.Feas v := by
  obtain ⟨v, hv⟩ := hf
  exact ⟨v, (h.feas v).2 hv⟩

theorem varRanges_some {solve : Solver K} (hs : SolverBounds solve) (hT : SolverTotal solve) :
    ∀ (is : List ℕ) {m : Mip K}, m.WF → (∀ i ∈ is, i < m.n) → (∃ v, m.Feas v) → (∀ i ∈ is, VarBdd m i) →
      ∃ r, varRanges solve is m = some r := by
  intro is
  induction is with
  | nil => intro m _ _ _ _; exact ⟨_, rfl⟩
  | cons i is ih =>
    intro m hw hi hf hb
    obtain ⟨m1, lo, up, h1⟩ := rangeBy_some hT hw (c := [1]) (x := [i]) rfl (by simp)
      (by simpa using hi i (by simp)) hf (by simpa using hb i (by simp))
    obtain ⟨s1, -⟩ := rangeBy_ok hs hw h1 rfl (by simp) (by simpa using hi i (by simp))
    obtain ⟨r, hr⟩ := ih s1.wf (fun j hj => by rw [s1.n]; exact hi j (by simp [hj])) (SameP.ex s1 hf)
      (fun j hj => SameP.bdd s1 (hb j (by simp [hj])))
    refine ⟨(r.1, (lo, up) :: r.2), ?_⟩
    rw [varRanges]
    simp only [Option.bind_eq_bind, h1, Option.bind_some, hr]

theorem rowRanges_some {solve : Solver K} (hs : SolverBounds solve) (hT : SolverTotal solve) {z : List ℕ}
    (hn : z.Nodup) : ∀ (W : Mat K) {m : Mip K}, m.WF → HasCols W z.length → (∀ i ∈ z, i < m.n) →
      (∃ v, m.Feas v) → (∀ i ∈ z, VarBdd m i) → ∃ r, rowRanges solve z W m = some r := by
  intro W
  induction W with
  | nil => intro m _ _ _ _ _; exact ⟨_, rfl⟩
  | cons w W ih =>
    intro m hw hc hz hf hb
    obtain ⟨m1, lo, up, h1⟩ := rangeBy_some hT hw (hc w (by simp)) hn hz hf hb
    obtain ⟨s1, -⟩ := rangeBy_ok hs hw h1 (hc w (by simp)) hn hz
    obtain ⟨r, hr⟩ := ih s1.wf (fun q hq => hc q (by simp [hq])) (fun j hj => by rw [s1.n]; exact hz j hj)
      (SameP.ex s1 hf) (fun j hj => SameP.bdd s1 (hb j hj))
    refine ⟨(r.1, (lo, up) :: r.2), ?_⟩
    rw [rowRanges]
    simp only [Option.bind_eq_bind, h1, Option.bind_some, hr]

theorem gradScalar_some (a : Act K) {lo up : K} (h : lo ≤ up) : ∃ p, gradScalar a lo up = some p := by
  cases a <;> simp [gradScalar, replaceBinaryContinuousProduct, leakyGradTimesX, h]

theorem gradScalar_exact {a : Act K} {lo up : K} {p : Rows K} (h : gradScalar a lo up = some p) {t y β : K}
    (hβ : β = 0 ∨ β = 1) (hh : p.Holds t y β) : |y| ≤ (1 + |a.slope|) * |t| := by
  have key : y = t ∨ y = a.slope * t := by
    cases a with
    | relu =>
      simp only [gradScalar] at h
      rw [C01_product_exact _ _ _ _ _ p h hβ] at hh
      rcases hβ with rfl | rfl
      · right; simpa [Act.slope] using hh.2
      · left; simpa using hh.2
    | leaky c =>
      simp only [gradScalar] at h
      by_cases hc : c = 1
      · subst hc
        rw [C04_leaky_gradient_slope_one _ _ _ _ _ p h] at hh
        left; exact hh
      · rw [C04_leaky_gradient_exact _ _ _ _ _ _ p hc h hβ] at hh
        rcases hβ with rfl | rfl
        · right; simpa [Act.slope] using hh.2
        · left; simpa using hh.2
  have := abs_nonneg t
  have := abs_nonneg a.slope
  have := mul_nonneg ‹0 ≤ |a.slope|› ‹0 ≤ |t|›
  rcases key with rfl | rfl
  · linarith
  · rw [abs_mul]; linarith

theorem wzUnits_some {solve : Solver K} (hs : SolverBounds solve) (hT : SolverTotal solve) (a : Act K) {z : List ℕ}
    (hn : z.Nodup) : ∀ (W : Mat K) (beta : List ℕ) {m : Mip K}, m.WF → HasCols W z.length →
      W.length ≤ beta.length → (∀ i ∈ z, i < m.n) → (∀ i ∈ beta, i < m.n) → (∃ v, m.Feas v) →
      (∀ i ∈ z, VarBdd m i) → (∀ v, m.Feas v → ∀ i ∈ beta, v i = 0 ∨ v i = 1) →
      ∃ u, wzUnits solve a z W beta m = some u ∧ (∃ v, u.m.Feas v) ∧ ∀ i ∈ u.z, VarBdd u.m i := by
  intro W
  induction W with
  | nil => intro beta m _ _ _ _ _ hf _ _; exact ⟨_, by rw [wzUnits], hf, by simp⟩
  | cons w W ih =>
    intro beta m hw hc hlen hz hb hf hbd hbin
    cases beta with
    | nil => simp at hlen
    | cons b beta =>
      obtain ⟨m1, lo, up, h1⟩ := rangeBy_some hT hw (hc w (by simp)) hn hz hf hbd
      obtain ⟨s1, r1⟩ := rangeBy_ok hs hw h1 (hc w (by simp)) hn hz
      obtain ⟨v, hv⟩ := hf
      obtain ⟨p, h2⟩ := gradScalar_some a ((r1 v hv).1.trans (r1 v hv).2)
      obtain ⟨m2, h3, S2⟩ := free_addVars m1 s1.wf 1
      have e1 : List.range' m1.n 1 = [m1.n] := rfl
      rw [e1] at h3
      have n2 : m2.n = m.n + 1 := by rw [S2.n, s1.n]
      have hbm : b < m.n := hb b (by simp)
      obtain ⟨m3, h4, S3⟩ := unitRow_step m2 S2.wf (gradScalar_lens h2) w z m1.n b (hc w (by simp))
        (fun i hi => by have := hz i hi; omega) (by rw [n2, s1.n]; omega) (by omega)
      have n3 : m3.n = m.n + 1 := by rw [S3.n, n2]
      have back : ∀ v, m3.Feas v → m.Feas v := fun v hv =>
        (s1.feas v).1 ((S2.feas v).1 ((S3.feas v).1 hv).1).1
      -- a feasible point of the enlarged program
      obtain ⟨β, hβ⟩ : ∃ β : Bool, v b = bit β := by
        rcases hbin v hv b (by simp) with h | h
        · exact ⟨false, by simp [bit, h]⟩
        · exact ⟨true, by simp [bit, h]⟩
      have f3 : ∃ v, m3.Feas v := by
        set v1 := upd v m.n [a.gain β * dot w (z.map v)] with hv1
        have ag : ∀ i, i < m.n → v1 i = v i := fun i hi => upd_lt _ _ _ _ hi
        have vn : v1 m.n = a.gain β * dot w (z.map v) := by simp [hv1, upd]
        have ez : z.map v1 = z.map v := List.map_congr_left fun i hi => ag i (hz i hi)
        refine ⟨v1, (S3.feas v1).2 ⟨(S2.feas v1).2 ⟨(s1.feas v1).2 ((hw.feas_congr ag).2 hv), trivial⟩, ?_⟩⟩
        rw [ez, s1.n, vn, ag b hbm, hβ]
        exact gradScalar_holds h2 β (r1 v hv)
      have bnew : VarBdd m3 m1.n := by
        obtain ⟨c, hc⟩ := dot_bdd m w z hbd
        refine ⟨(1 + |a.slope|) * c, fun v hv => ?_⟩
        refine (gradScalar_exact h2 (hbin v (back v hv) b (by simp)) ((S3.feas v).1 hv).2).trans ?_
        exact mul_le_mul_of_nonneg_left (hc v (back v hv)) (by have := abs_nonneg a.slope; linarith)
      obtain ⟨m4, zl, zu, h5⟩ := rangeBy_some hT S3.wf (c := [1]) (x := [m1.n]) rfl (by simp)
        (by simp [n3, s1.n]) f3 (by simpa using bnew)
      obtain ⟨s4, -⟩ := rangeBy_ok hs S3.wf h5 rfl (by simp) (by simp [n3, s1.n])
      have n4 : m4.n = m.n + 1 := by rw [s4.n, n3]
      have hz4 : ∀ i ∈ z, i < m4.n := fun i hi => by have := hz i hi; omega
      have hb4 : ∀ i ∈ beta, i < m4.n := fun i hi => by have := hb i (by simp [hi]); omega
      have hc' : HasCols W z.length := fun q hq => hc q (by simp [hq])
      obtain ⟨u, hu, fu, bu⟩ := ih beta s4.wf hc' (by simpa using hlen) hz4 hb4 (SameP.ex s4 f3)
        (fun i hi => by
          obtain ⟨c, hc⟩ := hbd i hi
          exact ⟨c, fun v hv => hc v (back v ((s4.feas v).1 hv))⟩)
        (fun v hv i hi => hbin v (back v ((s4.feas v).1 hv)) i (by simp [hi]))
      obtain ⟨-, -, -, u4, -⟩ := wzUnits_ok hs a hn W beta s4.wf hu hc' hz4 hb4
      refine ⟨⟨u.m, (lo, up) :: u.wz, [m1.n] ++ u.z, (zl, zu) :: u.zb⟩, ?_, fu, ?_⟩
      · rw [wzUnits]
        simp only [Option.bind_eq_bind, h1, Option.bind_some, h2, h3, h4, h5, hu]
      · intro i hi
        rcases List.mem_append.1 hi with hi | hi
        · obtain rfl : i = m1.n := by simpa using hi
          obtain ⟨c, hc⟩ := bnew
          exact ⟨c, fun v hv => hc v ((s4.feas v).1 (u4 v hv).1)⟩
        · exact bu i hi

theorem wzHidden_some {solve : Solver K} (hs : SolverBounds solve) (hT : SolverTotal solve) {k' : ℕ} :
    ∀ (hid : List (Lin K × Act K)) (z beta : List ℕ) {m : Mip K}, m.WF → HidOk z.length hid k' → z.Nodup →
      numUnits hid ≤ beta.length → (∀ i ∈ z, i < m.n) → (∀ i ∈ beta, i < m.n) → (∃ v, m.Feas v) →
      (∀ i ∈ z, VarBdd m i) → (∀ v, m.Feas v → ∀ i ∈ beta, v i = 0 ∨ v i = 1) →
      ∃ q, wzHidden solve hid z beta m = some q ∧ (∃ v, q.m.Feas v) ∧ ∀ i ∈ q.z, VarBdd q.m i := by
  intro hid
  induction hid with
  | nil => intro z beta m _ _ _ _ _ _ hf hb _; exact ⟨_, rfl, hf, hb⟩
  | cons la hid ih =>
    obtain ⟨l, a⟩ := la
    intro z beta m hw hok hn hlen hz hb hf hbd hbin
    obtain ⟨hin, hlok, hok'⟩ := hok
    have hcols' : HasCols l.W z.length := by rw [← hin]; exact hlok.1
    have hlen' : l.W.length + numUnits hid ≤ beta.length := by simpa [numUnits] using hlen
    have hbt : ∀ i ∈ beta.take l.W.length, i < m.n := fun i hi => hb i (List.mem_of_mem_take hi)
    obtain ⟨u, hu, fu, bu⟩ := wzUnits_some hs hT a hn l.W (beta.take l.W.length) hw hcols'
      (by rw [List.length_take]; omega) hz hbt hf hbd (fun v hv i hi => hbin v hv i (List.mem_of_mem_take hi))
    obtain ⟨u1, u2, u3, u4, -⟩ := wzUnits_ok hs a hn l.W _ hw hu hcols' hz hbt
    obtain ⟨q, hq, fq, bq⟩ := ih u.z (beta.drop l.W.length) u1 (by rw [u3]; simpa using hok')
      (by rw [u3]; exact List.nodup_range') (by rw [List.length_drop]; omega)
      (fun i hi => by rw [u3, List.mem_range'_1] at hi; omega)
      (fun i hi => by have := hb i (List.mem_of_mem_drop hi); omega) fu bu
      (fun v hv i hi => hbin v (u4 v hv).1 i (List.mem_of_mem_drop hi))
    refine ⟨⟨q.m, unzipB u.wz :: q.wz, q.z, unzipB u.zb :: q.zb⟩, ?_, fq, bq⟩
    rw [wzHidden]
    simp only [Option.bind_eq_bind, hu, Option.bind_some, hq]

/-- C137: when the flags are binary and `z_0` is bounded, `_compute_Wz_bounds_optimization` returns. -/
theorem C137_wz_accepts {solve : Solver K} (hs : SolverBounds solve) (hT : SolverTotal solve) {net : Net K} {n : ℕ}
    (hok : net.Ok n) {m : Mip K} (hw : m.WF) {z0 beta : List ℕ} (hl : z0.length = n) (hn : z0.Nodup)
    (hz : ∀ i ∈ z0, i < m.n) (hb : ∀ i ∈ beta, i < m.n) (hbl : numUnits net.hidden ≤ beta.length)
    (hf : ∃ v, m.Feas v) (hbd : ∀ i ∈ z0, VarBdd m i)
    (hbin : ∀ v, m.Feas v → ∀ i ∈ beta, v i = 0 ∨ v i = 1) : ∃ q, wzBoundsOpt solve net m z0 beta = some q := by
  obtain ⟨⟨m1, b0⟩, h1⟩ := varRanges_some hs hT z0 hw hz hf hbd
  obtain ⟨s1, -⟩ := varRanges_ok hs z0 hw h1 hz
  have ok1 : HidOk z0.length net.hidden net.last.inF := by rw [hl]; exact hok.1
  have hz1 : ∀ i ∈ z0, i < m1.n := by rw [s1.n]; exact hz
  have hb1 : ∀ i ∈ beta, i < m1.n := by rw [s1.n]; exact hb
  obtain ⟨q, hq, fq, bq⟩ := wzHidden_some hs hT net.hidden z0 beta s1.wf ok1 hn hbl hz1 hb1
    (SameP.ex s1 hf) (fun i hi => SameP.bdd s1 (hbd i hi)) (fun v hv => hbin v ((s1.feas v).1 hv))
  obtain ⟨w1, w2, w3, w4, -⟩ := wzHidden_ok hs net.hidden z0 beta s1.wf hq ok1 hn hz1 hb1
  obtain ⟨e, he⟩ := rowRanges_some hs hT w2 net.last.W w1 (by rw [w3]; exact hok.2.1) w4 fq bq
  refine ⟨⟨e.1, unzipB b0, q.zb, q.wz, unzipB e.2⟩, ?_⟩
  unfold wzBoundsOpt
  simp only [Option.bind_eq_bind, h1, Option.bind_some, hq, he]

theorem gradHid_of_between : ∀ (hs : List (Lin K × Act K)) (wz : List (Vec K × Vec K)) (pat : List (List Bool))
    (v : Vec K), PatFits hs pat → List.Forall₂ BetweenB wz (dirPre hs pat v) → ∀ (xs n : ℕ) (first : Bool) (p o : ℕ),
    ∃ c, gradHid xs n first p o hs wz = some c := by
  intro hs
  induction hs with
  | nil => intro wz pat v _ _ xs n first p o; exact ⟨[], by unfold gradHid; rfl⟩
  | cons la hs ih =>
    obtain ⟨l, a⟩ := la
    intro wz pat v hp h xs n first pp o
    cases hp with
    | @cons p _ ps _ hpl hps =>
      rw [dirPre] at h
      cases h with
      | @cons b _ bs _ h1 h2 =>
        obtain ⟨c1, hc1⟩ := gradLayer_isSome l a (lo := b.1) (up := b.2) (fun j hj => by
          have := h1.2.2 j (by simpa [matVec] using hj)
          exact this.1.trans this.2)
        obtain ⟨c2, hc2⟩ := ih bs ps _ hps h2 xs n false o (o + l.W.length)
        exact ⟨_, by unfold gradHid; rw [hc1, hc2]⟩

/-- C137: with binaries (method MIP), when the velocities of the system are bounded and some state of the box has
one, the bounds are computed and the derivative program is built. -/
theorem C137_accepts (L : Lyap K) (hL : L.NetOk) {o : Opt K} (hm : L.method = .opt o false)
    {R : Option (Tensor2 K)} {R' : Mat K} {xe : Vec K} (h : L.EqOk R R' xe) (lam eps : K) (lower upper : Option K)
    {sys : SysConstr K} {Dom Rel : Vec K → Vec K → Prop} (hsys : SysEnc sys L.dim Dom Rel) {P : BoundProg K}
    (hP : BoundProgOk P L.dim Dom) {solve : Solver K} (hs : SolverBounds solve) (hT : SolverTotal solve)
    (hbd : ∀ i ∈ P.xn, VarBdd P.m i) {x xd : Vec K} (hx : InBox L.xLo L.xUp x) (hxd : xd.length = L.dim)
    (hdom : Dom x xd) :
    ∃ B D, L.optBounds solve P R' false = some B ∧
      L.rate sys B xe lam eps .expLower R lower upper .binary = some D := by
  obtain ⟨t, ht, -, tb, tn, -, -, hret, -, E⟩ := relu_pat_enc L hL P.m hP.wf P.x hP.lx hP.x
  obtain ⟨t', ht', -, -, -, -, -, -, E'⟩ := relu_enc L hL P.m hP.wf P.x hP.lx hP.x
  obtain rfl : t = t' := Option.some.inj (ht.symm.trans ht')
  obtain ⟨v0, f0, ex, exn⟩ := hP.complete x xd hx.1 hxd hdom
  obtain ⟨v, a1, f1⟩ := E'.complete v0 f0 (by rw [ex]; exact hx)
  have exv : P.xn.map v = xd := by
    rw [← exn]
    exact List.map_congr_left fun i hi => a1 i (hP.xn i hi)
  obtain ⟨-, -, -, p0, -, hfit, hbp, -⟩ := (E []).sound v f1
  have bxn : ∀ i ∈ P.xn, i < t.m.n := fun i hi => by have := hP.xn i hi; omega
  have bb : ∀ i ∈ t.beta, i < t.m.n := fun i hi => by rw [tb, List.mem_range'_1] at hi; omega
  have wt := (E []).wf
  obtain ⟨q, hq⟩ := C137_wz_accepts hs hT hL.net wt hP.lxn hP.nodup bxn bb (by rw [tb]; simp) ⟨v, f1⟩
    (fun i hi => by
      obtain ⟨b, hb⟩ := hbd i hi
      exact ⟨b, fun w hw => hb w ((E []).sound w hw).1⟩)
    (fun w hw i hi => (E'.sound w hw).2.2.1 (w i) (List.mem_map_of_mem hi))
  obtain ⟨w1, w2, w3, w4⟩ := wzBoundsOpt_ok hs hL.net wt hq hP.lxn hP.nodup bxn bb
  obtain ⟨-, -, c3, -, v2, a2, f2⟩ := w4 v p0 f1 hfit hbp
  rw [exv] at c3
  have bxn' : ∀ i ∈ P.xn, i < q.m.n := fun i hi => by have := bxn i hi; omega
  have hc' : HasCols R' P.xn.length := by rw [hP.lxn]; exact h.cols
  have qf : ∀ w, q.m.Feas w → P.m.Feas w := by
    intro w hw
    unfold wzBoundsOpt at hq
    obtain ⟨⟨m1, b0⟩, g1, hq⟩ := Option.bind_eq_some_iff.1 hq
    obtain ⟨w', g2, hq⟩ := Option.bind_eq_some_iff.1 hq
    obtain ⟨⟨m3, e⟩, g3, hq⟩ := Option.bind_eq_some_iff.1 hq
    cases hq
    obtain ⟨s1, -⟩ := varRanges_ok hs P.xn wt g1 bxn
    obtain ⟨k1, k2, k3, k4, -, -, k7, -⟩ := wzHidden_ok hs (k' := L.net.last.inF) L.net.hidden P.xn t.beta s1.wf g2
      (by rw [hP.lxn]; exact hL.net.1) hP.nodup (by rw [s1.n]; exact bxn) (by rw [s1.n]; exact bb)
    obtain ⟨s3, -⟩ := rowRanges_ok hs k2 L.net.last.W k1 g3 (by rw [k3]; exact hL.net.2.1) k4
    exact ((E []).sound w ((s1.feas w).1 (k7 w ((s3.feas w).1 hw)))).1
  obtain ⟨e, he⟩ := rowRanges_some hs hT hP.nodup R' w1 hc' bxn' ⟨v2, f2⟩ (fun i hi => by
    obtain ⟨b, hb⟩ := hbd i hi
    exact ⟨b, fun w hw => hb w (qf w hw)⟩)
  have b2 := (rowRanges_ok hs hP.nodup R' w1 he hc' bxn').2 v2 f2
  have exv2 : P.xn.map v2 = xd := by
    rw [← exv]
    exact List.map_congr_left fun i hi => a2 i (bxn i hi)
  rw [exv2] at b2
  have hml : (matVec R' xd).length = R'.length := by simp [matVec]
  have hB : L.optBounds solve P R' false = some (.opt q.wz (unzipB e.2).1 (unzipB e.2).2) := by
    unfold Lyap.addRelu at ht
    obtain ⟨r, hr, ht⟩ := Option.bind_eq_some_iff.1 ht
    obtain ⟨⟨m1, s1, b1⟩, h1, ht⟩ := Option.bind_eq_some_iff.1 ht
    obtain ⟨aa, -, ht⟩ := Option.bind_eq_some_iff.1 ht
    obtain ⟨bb, -, ht⟩ := Option.bind_eq_some_iff.1 ht
    simp only [Option.some.injEq] at ht
    subst ht
    unfold Lyap.optBounds
    have hbt : boundType false = VType.binary := rfl
    simp only [hr, Option.bind_eq_bind, Option.bind_some, hbt, h1, hq, he]
  have hne : L.net.hidden ≠ [] := by
    intro e
    have := hL.units
    rw [e] at this
    simp [numUnits] at this
  have hgrad : ∃ c, gradTimesVecBounds L.net L.dim q.wz = some c := by
    obtain ⟨c, hc⟩ := gradHid_of_between L.net.hidden q.wz p0 xd hfit c3 L.dim (numUnits L.net.hidden) true 0 0
    unfold gradTimesVecBounds
    simp only
    rw [hc]
    cases hh : L.net.hidden with
    | nil => exact absurd hh hne
    | cons q qs => exact ⟨_, rfl⟩
  have hok : RateOk L (.opt q.wz (unzipB e.2).1 (unzipB e.2).2) R' q.wz (unzipB e.2) :=
    ⟨by simp [Lyap.wzBounds, hm], w3, hgrad, by simp [Lyap.rateRange, hm], b2.1.trans hml, b2.2.1.trans hml,
      fun i hi => ((b2.2.2 i (by omega)).1).trans (b2.2.2 i (by omega)).2⟩
  obtain ⟨D, -, -, hD, -⟩ := C39_program L hL h lam eps lower upper hsys hok
  exact ⟨_, D, hB, hD⟩

/-! ### A solver -/

/-- Some bound of the objective on the feasible set. -/
noncomputable def anySolve : Solver K := fun m =>
  open Classical in
  match m.obj.map MilpObj.maximize with
  | some true => if h : ∃ b, ∀ v, m.Feas v → m.objVal v ≤ b then some h.choose else none
  | some false => if h : ∃ b, ∀ v, m.Feas v → b ≤ m.objVal v then some h.choose else none
  | none => none

/-- The hypotheses on the solver can be met. -/
theorem anySolve_ok : SolverBounds (anySolve : Solver K) ∧ SolverTotal (anySolve : Solver K) := by
  constructor
  · intro m val h v hv
    unfold anySolve at h
    constructor
    · intro e
      rw [e] at h
      simp only at h
      split_ifs at h with hb
      cases h
      exact hb.choose_spec v hv
    · intro e
      rw [e] at h
      simp only at h
      split_ifs at h with hb
      cases h
      exact hb.choose_spec v hv
  · rintro m ⟨mx, e⟩ - ⟨b, hb⟩
    unfold anySolve
    rw [e]
    cases mx with
    | true =>
      have : ∃ b, ∀ v, m.Feas v → m.objVal v ≤ b := ⟨b, fun v hv => (abs_le.1 (hb v hv)).2⟩
      exact ⟨_, dif_pos this⟩
    | false =>
      have : ∃ b, ∀ v, m.Feas v → b ≤ m.objVal v := ⟨-b, fun v hv => (abs_le.1 (hb v hv)).1⟩
      exact ⟨_, dif_pos this⟩

/-- C137: for a network system without input, with a method whose bounds are valid, the bound program with binaries
is built and the velocities in it are bounded, so the bounds are computed and the derivative program is built. -/
theorem C137_auto_accepts (L : Lyap K) (hL : L.NetOk) {o : Opt K} (hmL : L.method = .opt o false)
    {R : Option (Tensor2 K)} {R' : Mat K} {xe : Vec K} (h : L.EqOk R R' xe) (lam eps : K) (lower upper : Option K)
    {S : AutoRelu K} (hS : AutoRelu.Ok S L.dim) (hm : MethodValid S.net S.xLo S.xUp S.method) {r : ReluMIC K}
    (hr : S.micEq = some r) {solve : Solver K} (hs : SolverBounds solve) (hT : SolverTotal solve) {x : Vec K}
    (hx : InBox L.xLo L.xUp x) (hxS : InBox S.xLo S.xUp x) :
    ∃ P B D, autoBoundProg S.micEq L.dim false = some P ∧ L.optBounds solve P R' false = some B ∧
      L.rate (addAuto S.micEq) B xe lam eps .expLower R lower upper .binary = some D := by
  have hsys := (C50_auto_equilibrium hS hm hr).2
  obtain ⟨P, hP, hok, hrel⟩ := C137_auto_program hsys false
  have hr' := hr
  unfold AutoRelu.micEq at hr'
  obtain ⟨r0, h0, -⟩ := Option.bind_eq_some_iff.1 hr'
  rw [hS.lo] at h0
  have hbd : ∀ i ∈ P.xn, VarBdd P.m i := by
    intro i hi
    obtain ⟨k, hk, rfl⟩ := List.getElem_of_mem hi
    refine ⟨max |(S.nextBoundsEq r0).1.getD k 0| |(S.nextBoundsEq r0).2.getD k 0|, fun v hv => ?_⟩
    obtain ⟨hb, hy⟩ := hrel rfl v hv
    obtain ⟨b1, -, b2⟩ := (C50_next_bounds hS hm h0 hb).2.1
    rw [← hy] at b1 b2
    have := b2 k (by simpa [← b1] using hk)
    have e : (P.xn.map v).getD k 0 = v P.xn[k] := by simp [List.getD_eq_getElem?_getD, hk]
    rw [e] at this
    exact abs_le_max_abs_abs this.1 this.2
  obtain ⟨B, D, hB, hD⟩ := C137_accepts L hL hmL h lam eps lower upper hsys hok hs hT hbd hx
    (C50_auto_equilibrium_step hS x hx.1).1 ⟨hxS, rfl⟩
  exact ⟨P, B, D, hP, hB, hD⟩

/-! ### A concrete case -/

/-- The network of the examples as a continuous-time system. -/
def exContRelu : AutoRelu ℚ := { exAutoRelu with discrete := false }

/-- The candidate of the examples with bounds from a solver, the network system `exContRelu`: all hypotheses of
`C137_auto_verdict` up to the solver's verdict are met. -/
example : ∃ (o : Opt ℚ) (L : Lyap ℚ) (r : ReluMIC ℚ) (P : BoundProg ℚ) (B : RateBounds ℚ) (D : RateRet ℚ),
    L = { exLyap with method := .opt o false } ∧ L.NetOk ∧ L.EqOk (some exR) exR.rows [0, 1 / 2] ∧
      AutoRelu.Ok exContRelu L.dim ∧ exContRelu.micEq = some r ∧
      autoBoundProg exContRelu.micEq L.dim false = some P ∧ L.optBounds anySolve P exR.rows false = some B ∧
      L.rate (addAuto exContRelu.micEq) B [0, 1 / 2] (1 / 2) (1 / 10) .expLower (some exR) none (some 3) .binary =
        some D := by
  have hn := exLyap_ok
  have hq := exEq_ok
  obtain ⟨o, ho⟩ := C11_mip_oracle_exists exLyap.net exLyap.dim exLyap.xLo exLyap.xUp hn.net rfl hn.up
  have hb : ∀ i, i < exLyap.dim → exLyap.xLo.getD i 0 ≤ exLyap.xUp.getD i 0 := by
    intro i hi
    have : i < 2 := hi
    interval_cases i <;> norm_num [exLyap]
  have hL : Lyap.NetOk { exLyap with method := .opt o false } :=
    ⟨hn.up, hn.net, hn.out, hn.units, ⟨false, ho⟩,
      outputConstraint_isSome (.opt o false) hn.net (by simp [exLyap]) rfl hn.up hb⟩
  have hE : Lyap.EqOk { exLyap with method := .opt o false } (some exR) exR.rows [0, 1 / 2] :=
    ⟨hq.up, hq.R, hq.cols, hq.rows, hq.xe⟩
  have hS : AutoRelu.Ok exContRelu 2 := ⟨exNet_ok, rfl, rfl, rfl, exBox, rfl⟩
  obtain ⟨-, h2, -⟩ := C50_auto_accepts hS rfl (by simp [exContRelu, exAutoRelu, exNet])
  obtain ⟨r, hr⟩ := Option.isSome_iff_exists.1 h2
  obtain ⟨P, B, D, e1, e2, e3⟩ := C137_auto_accepts _ hL rfl hE (1 / 2) (1 / 10) none (some 3) hS trivial hr
    anySolve_ok.1 anySolve_ok.2 (x := [0, 1 / 2]) hq.xe hq.xe
  exact ⟨o, _, r, P, B, D, rfl, hL, hE, hS, hr, e1, e2, e3⟩

end NNL.Props
