import Verif.Props.ReluSystem
import Verif.Model.ExampleSystems

/-!
# Building blocks of the programs of the example systems
-/

set_option linter.unusedSectionVars false

namespace NNL.Model

open NNL NNL.Spec NNL.Props

variable {K : Type*} [Field K] [LinearOrder K] [IsStrictOrderedRing K]

/-! ### Slices -/

theorem length_seg {α : Type*} (l : List α) (a b : ℕ) (h : b ≤ l.length) : (seg l a b).length = b - a := by
  simp [seg]; omega

theorem map_seg {α β : Type*} (f : α → β) (l : List α) (a b : ℕ) : (seg l a b).map f = seg (l.map f) a b := by
  simp [seg, List.map_take, List.map_drop]

theorem mem_of_seg {α : Type*} {l : List α} {a b : ℕ} {i : α} (h : i ∈ seg l a b) : i ∈ l :=
  List.mem_of_mem_drop (List.mem_of_mem_take h)

theorem getD_seg {α : Type*} (l : List α) (a b i : ℕ) (d : α) (h : i < b - a) :
    (seg l a b).getD i d = l.getD (a + i) d := by
  simp [seg, List.getD, h]

theorem getD_map_of_lt {α β : Type*} (f : α → β) (l : List α) (i : ℕ) (d : α) (e : β) (h : i < l.length) :
    (l.map f).getD i e = f (l.getD i d) := by
  simp [List.getD, h]

/-! ### Acceptance -/

theorem layerBoundOpt_isSome (o : Opt K) (f : Bool) {m : ℕ} :
    ∀ (rest done : List (Lin K × Act K)) (k : ℕ) (acc : LayerBounds K) (lo up : Vec K), HidOk k rest m →
      lo.length = k → up.length = k → ∃ B, layerBoundOpt o f done acc lo up rest = some B ∧
        B.preLo.length = acc.preLo.length + numUnits rest ∧ B.preUp.length = acc.preUp.length + numUnits rest := by
  intro rest
  induction rest with
  | nil => intro done k acc lo up _ _ _; exact ⟨acc, rfl, by simp [numUnits], by simp [numUnits]⟩
  | cons p rest ih =>
    obtain ⟨l, a⟩ := p
    intro done k acc lo up h h1 h2
    obtain ⟨hk, hl, hrest⟩ := h
    subst hk
    obtain ⟨pre, hp, p1, p2⟩ : ∃ pre, layerOpt o f done acc.preLo acc.preUp l lo up = some pre ∧
        pre.1.length = l.W.length ∧ pre.2.length = l.W.length := by
      unfold layerOpt
      cases f with
      | false => exact ⟨_, rfl, by simp, by simp⟩
      | true =>
        obtain ⟨ia, hia, i1, i2⟩ := rangeIA_isSome hl h1 h2
        simp only [if_true]
        rw [hia]
        exact ⟨_, rfl, by simp [i1], by simp [i2]⟩
    obtain ⟨q1, q2⟩ := length_propagateAct a pre.1 pre.2 _ p1 p2
    obtain ⟨B, hB, b1, b2⟩ := ih (done ++ [(l, a)]) _ ⟨acc.preLo ++ pre.1, acc.preUp ++ pre.2,
      acc.postLo ++ (propagateAct a pre.1 pre.2).1, acc.postUp ++ (propagateAct a pre.1 pre.2).2⟩ _ _ hrest q1 q2
    refine ⟨B, by simp only [layerBoundOpt, hp]; exact hB, ?_, ?_⟩
    · rw [b1]; simp [numUnits, p1]; omega
    · rw [b2]; simp [numUnits, p2]; omega

theorem layerBound_isSome (method : Method K) {net : Net K} {n : ℕ} (hok : net.Ok n) {lo up : Vec K}
    (h1 : lo.length = n) (h2 : up.length = n) : ∃ B, layerBound method net.hidden lo up = some B ∧
      B.preLo.length = numUnits net.hidden ∧ B.preUp.length = numUnits net.hidden := by
  cases method with
  | ia => exact layerBoundIA_isSome hok.1 h1 h2
  | opt o f =>
    obtain ⟨B, hB, b1, b2⟩ := layerBoundOpt_isSome o f net.hidden [] n ⟨[], [], [], []⟩ lo up hok.1 h1 h2
    exact ⟨B, hB, by simpa using b1, by simpa using b2⟩

theorem outputConstraint_isSome (method : Method K) {net : Net K} {n : ℕ} (hok : net.Ok n) (hne : net.hidden ≠ [])
    {lo up : Vec K} (h1 : lo.length = n) (h2 : up.length = n) (hb : ∀ i, i < n → lo.getD i 0 ≤ up.getD i 0) :
    ∃ r, outputConstraint net n lo up method = some r := by
  obtain ⟨B, hB, l1, l2⟩ := layerBound_isSome method hok h1 h2
  obtain ⟨ia, hia⟩ := outputBoundsIA_isSome hok hne l1 l2
  obtain ⟨o, ho⟩ : ∃ o, outputBounds method net B.preLo B.preUp = some o := by
    cases method with
    | ia => exact ⟨ia, hia⟩
    | opt o f =>
      simp only [outputBounds, outputBoundsOpt]
      cases f with
      | false => exact ⟨_, rfl⟩
      | true => rw [hia]; exact ⟨_, rfl⟩
  obtain ⟨c, hc⟩ := outputCons_isSome net n B.preLo B.preUp lo up hne
  unfold outputConstraint
  rw [if_pos (by rw [h1]; exact hb)]
  simp [hB, ho, hc]

/-! ### The constraints of one network -/

/-- `c` holds only at inputs in the box `lo`, `up`, with slacks from which the output layer gives the network output, and
it does hold at those with `G`. -/
structure NetBlockOn (c : MIC K) (N : Net K) (n : ℕ) (lo up : Vec K) (G : Vec K → Prop) : Prop where
  ready : c.Ready n
  A : c.Aout_slack = some (netOut N)
  C : c.Cout = some N.last.b
  okA : (netOut N).Ok
  cols : c.numSlack = (netOut N).cols
  rows : (netOut N).rows.length = N.last.W.length
  lenb : N.last.b.length = N.last.W.length
  box : ∀ z s b : Vec K, z.length = n → c.Feas z s b → InBox lo up z
  feas : ∀ z : Vec K, z.length = n → InBox lo up z → G z → ∃ s b, c.Feas z s b
  out : ∀ z s b : Vec K, z.length = n → c.Feas z s b → ∀ i, i < N.last.W.length →
    dot ((netOut N).rows.getD i []) s + N.last.b.getD i 0 = (N.eval z).getD i 0

/-- `c` holds exactly at the inputs in the box `lo`, `up`. -/
abbrev NetBlock (c : MIC K) (N : Net K) (n : ℕ) (lo up : Vec K) : Prop := NetBlockOn c N n lo up fun _ => True

theorem NetBlockOn.exact {c : MIC K} {N : Net K} {n : ℕ} {lo up : Vec K} (h : NetBlock c N n lo up) (z : Vec K)
    (hz : z.length = n) : (∃ s b, c.Feas z s b) ↔ InBox lo up z :=
  ⟨fun ⟨s, b, hf⟩ => h.box z s b hz hf, fun hb => h.feas z hz hb trivial⟩

/-- The constraints with given bounds of the units, at the inputs where the bounds are valid. -/
theorem netBlockOn_given {N : Net K} {n : ℕ} {lo up zlo zup : Vec K} {c : MIC K}
    (hc : outputConsGivenBounds N n zlo zup lo up = some c) (hok : N.Ok n) (h1 : lo.length = n) (h2 : up.length = n) :
    NetBlockOn c N n lo up fun x => InBox zlo zup (preacts N.hidden x).flatten := by
  obtain ⟨hrdy, n1, n2, n3, hA, hC, hAi, hAb⟩ := outputCons_ready hc hok
  refine ⟨hrdy, hA, hC, (hrdy.sized.shaped.aout_s _ hA).2.2, n1, by simp [netOut], by rw [hok.2.2],
    fun z s b hz hf => (C12_sound hc hok hz h1 h2 hf).1, fun z _ hz' hb => C12_complete hc hok h1 h2 hz' hb, ?_⟩
  · intro z s b hz hf i hi
    obtain ⟨-, hs, e⟩ := C12_sound hc hok hz h1 h2 hf
    rw [← e, MIC.out, n3, hAi, hA, hAb, hC]
    simp [mrow, hi, List.getD, netOut]

theorem NetBlockOn.mono {c : MIC K} {N : Net K} {n : ℕ} {lo up : Vec K} {G G' : Vec K → Prop}
    (h : NetBlockOn c N n lo up G) (hG : ∀ z, InBox lo up z → G' z → G z) : NetBlockOn c N n lo up G' :=
  { h with feas := fun z hz hb hg => h.feas z hz hb (hG z hb hg) }

theorem netBlock_given {N : Net K} {n : ℕ} {lo up zlo zup : Vec K} {c : MIC K}
    (hc : outputConsGivenBounds N n zlo zup lo up = some c) (hok : N.Ok n) (h1 : lo.length = n) (h2 : up.length = n)
    (hb : ∀ x, InBox lo up x → InBox zlo zup (preacts N.hidden x).flatten) : NetBlock c N n lo up :=
  (netBlockOn_given hc hok h1 h2).mono fun z hz _ => hb z hz

theorem netBlock_of {N : Net K} {n : ℕ} {lo up : Vec K} {method : Method K} {r : ReluMIC K}
    (hr : outputConstraint N n lo up method = some r) (hok : N.Ok n) (hm : MethodValid N lo up method)
    (h1 : lo.length = n) (h2 : up.length = n) : NetBlock r.mic N n lo up := by
  obtain ⟨-, -, h3, -⟩ := outputConstraint_some hr
  exact netBlock_given h3 hok h1 h2 fun x hx => (C11_bounds_sound hr hok hm hx).1

/-- A network without output, followed by the rows `bs - A · slack = b - e`. -/
theorem net_rows_on {c : MIC K} {N : Net K} {n : ℕ} {lo up : Vec K} {G : Vec K → Prop} (hb : NetBlockOn c N n lo up G)
    (m : Mip K) (hw : m.WF)
    (zs : List ℕ) (lz : zs.length = n) (hz : ∀ i ∈ zs, i < m.n) (bs : List (Tensor2 K × List ℕ)) (e : Vec K)
    (he : e.length = N.last.W.length)
    (hbs : ∀ p ∈ bs, p.1.rows.length = N.last.W.length ∧ p.1.cols = p.2.length ∧ p.1.Ok ∧ ∀ i ∈ p.2, i < m.n) :
    ∃ m1 m2 sl bi, m.addMIC c zs none .fresh .binary = some (m1, sl, bi) ∧
      m1.addMConstr (bs.map Prod.fst ++ [⟨(netOut N).cols, (netOut N).rows.map vneg⟩]) (bs.map Prod.snd ++ [sl]) .eq
        (vsub N.last.b e) = some m2 ∧
      Enc m m2 (fun v => (InBox lo up (zs.map v) ∧ ∀ i, i < N.last.W.length →
          (bs.map fun p => dot (p.1.rows.getD i []) (p.2.map v)).sum = (N.eval (zs.map v)).getD i 0 - e.getD i 0) ∧
          G (zs.map v))
        fun v => InBox lo up (zs.map v) ∧ ∀ i, i < N.last.W.length →
          (bs.map fun p => dot (p.1.rows.getD i []) (p.2.map v)).sum = (N.eval (zs.map v)).getD i 0 - e.getD i 0 := by
  obtain ⟨m1, hm1, hn1, e1⟩ := mic_enc m hw c zs (by rw [lz]; exact hb.ready) hz
  set sl := List.range' m.n c.numSlack with hsl
  set bi := List.range' (m.n + c.numSlack) c.numBinary with hbi
  have lbe : (vsub N.last.b e).length = N.last.W.length := by simp [hb.lenb, he]
  obtain ⟨m2, hm2, s2⟩ := mconstr_step m1 e1.wf (bs ++ [(⟨(netOut N).cols, (netOut N).rows.map vneg⟩, sl)]) .eq
    (vsub N.last.b e) (by simp) (by
      rw [lbe]
      intro p hp
      rcases List.mem_append.1 hp with hp | hp
      · obtain ⟨a1, a2, a3, a4⟩ := hbs p hp
        exact ⟨a1, a2, a3, fun i hi => (a4 i hi).trans_le e1.n⟩
      · obtain rfl := List.mem_singleton.1 hp
        refine ⟨by simp [hb.rows], by simp [hsl, hb.cols], ?_, fun i hi => ?_⟩
        · intro r hr
          obtain ⟨r', hr', rfl⟩ := List.mem_map.1 hr
          simpa using hb.okA r' hr'
        · have := (List.mem_range'_1.1 (hsl ▸ hi)).2
          omega)
  have g2 : ∀ v : ℕ → K, (∀ i, i < (vsub N.last.b e).length → Sense.eq.Rel
      ((bs ++ [((⟨(netOut N).cols, (netOut N).rows.map vneg⟩ : Tensor2 K), sl)]).map
        fun p => dot (p.1.rows.getD i []) (p.2.map v)).sum ((vsub N.last.b e).getD i 0)) ↔
      ∀ i, i < N.last.W.length → (bs.map fun p => dot (p.1.rows.getD i []) (p.2.map v)).sum =
        dot ((netOut N).rows.getD i []) (sl.map v) + N.last.b.getD i 0 - e.getD i 0 := by
    intro v
    rw [lbe]
    refine forall_congr' fun i => forall_congr' fun hi' => ?_
    have hneg : ((netOut N).rows.map vneg).getD i [] = vneg ((netOut N).rows.getD i []) := by
      simp [List.getD, hb.rows, hi']
    simp only [List.map_append, List.sum_append, List.map_cons, List.map_nil, List.sum_cons, List.sum_nil, Sense.Rel]
    rw [hneg, dot_vneg_left, getD_vsub _ _ _ (by rw [hb.lenb, he])]
    constructor <;> intro hh' <;> linarith
  have e2 := (s2.congr rfl g2).enc0 e1.wf
  refine ⟨m1, m2, sl, bi, hm1, by simpa using hm2, ?_⟩
  set D : (ℕ → K) → Prop := fun v => (InBox lo up (zs.map v) ∧ ∀ i, i < N.last.W.length →
    (bs.map fun p => dot (p.1.rows.getD i []) (p.2.map v)).sum = (N.eval (zs.map v)).getD i 0 - e.getD i 0) ∧
    G (zs.map v) with hD
  have dep : DepsBelow m.n D := by
    intro v w hvw hv
    have q1 : zs.map w = zs.map v := List.map_congr_left fun i hi => (hvw i (hz i hi)).symm
    have q2 : ∀ i, (bs.map fun p => dot (p.1.rows.getD i []) (p.2.map w)) =
        bs.map fun p => dot (p.1.rows.getD i []) (p.2.map v) := by
      intro i
      refine List.map_congr_left fun p hp => ?_
      congr 1
      exact List.map_congr_left fun j hj => (hvw j ((hbs p hp).2.2.2 j hj)).symm
    simp only [hD] at hv ⊢
    simp only [q1, q2]
    exact hv
  have e1' : Enc m m1 D fun v => c.Feas (zs.map v) (sl.map v) (bi.map v) :=
    e1.weaken (fun v _ hv => hb.feas _ (by simp [lz]) hv.1.1 hv.2) (fun _ _ h => h)
  refine (e1'.seq e2 dep ?_).weaken (fun _ _ h => h) ?_
  · intro v hv hf i hi
    rw [hb.out _ _ _ (by simp [lz]) hf i hi]
    exact hv.1.2 i hi
  · rintro v - ⟨hf, hR⟩
    refine ⟨hb.box _ _ _ (by simp [lz]) hf, fun i hi => ?_⟩
    rw [hR i hi, hb.out _ _ _ (by simp [lz]) hf i hi]

theorem net_rows {c : MIC K} {N : Net K} {n : ℕ} {lo up : Vec K} (hb : NetBlock c N n lo up) (m : Mip K) (hw : m.WF)
    (zs : List ℕ) (lz : zs.length = n) (hz : ∀ i ∈ zs, i < m.n) (bs : List (Tensor2 K × List ℕ)) (e : Vec K)
    (he : e.length = N.last.W.length)
    (hbs : ∀ p ∈ bs, p.1.rows.length = N.last.W.length ∧ p.1.cols = p.2.length ∧ p.1.Ok ∧ ∀ i ∈ p.2, i < m.n) :
    ∃ m1 m2 sl bi, m.addMIC c zs none .fresh .binary = some (m1, sl, bi) ∧
      m1.addMConstr (bs.map Prod.fst ++ [⟨(netOut N).cols, (netOut N).rows.map vneg⟩]) (bs.map Prod.snd ++ [sl]) .eq
        (vsub N.last.b e) = some m2 ∧
      Enc m m2 (fun v => InBox lo up (zs.map v) ∧ ∀ i, i < N.last.W.length →
          (bs.map fun p => dot (p.1.rows.getD i []) (p.2.map v)).sum = (N.eval (zs.map v)).getD i 0 - e.getD i 0)
        fun v => InBox lo up (zs.map v) ∧ ∀ i, i < N.last.W.length →
          (bs.map fun p => dot (p.1.rows.getD i []) (p.2.map v)).sum = (N.eval (zs.map v)).getD i 0 - e.getD i 0 := by
  obtain ⟨m1, m2, sl, bi, h1, h2, h3⟩ := net_rows_on hb m hw zs lz hz bs e he hbs
  exact ⟨m1, m2, sl, bi, h1, h2, h3.weaken (fun _ _ h => ⟨h, trivial⟩) fun _ _ h => h⟩

/-! ### Rows -/

theorem tensor_eye_ok (p : ℕ) : (⟨p, eye p⟩ : Tensor2 K).Ok := eye_hasCols p

theorem tensor_eye_map_ok (p : ℕ) (f : Vec K → Vec K) (hf : ∀ a, (f a).length = a.length) :
    (⟨p, (eye p).map f⟩ : Tensor2 K).Ok := by
  intro r hr
  obtain ⟨r', hr', rfl⟩ := List.mem_map.1 hr
  rw [hf]
  exact eye_hasCols p r' hr'

/-- The blocks of the next and the current values. -/
def incBlocks (p : ℕ) (a b : List ℕ) : List (Tensor2 K × List ℕ) := [(⟨p, eye p⟩, a), (⟨p, (eye p).map vneg⟩, b)]

theorem inc_sum (p : ℕ) (a b : List ℕ) (v : ℕ → K) (i : ℕ) (hi : i < p) :
    ((incBlocks p a b).map fun q => dot (q.1.rows.getD i []) (q.2.map v)).sum =
      (a.map v).getD i 0 - (b.map v).getD i 0 := by
  simp only [incBlocks, List.map_cons, List.map_nil, List.sum_cons, List.sum_nil]
  rw [dot_map_eye _ _ _ hi, getD_eye p i hi, dot_eyeRow _ _ _ hi, dot_vneg_left, dot_eyeRow _ _ _ hi]
  ring

theorem inc_ok {n p : ℕ} {a b : List ℕ} (la : a.length = p) (lb : b.length = p) (ha : ∀ i ∈ a, i < n)
    (hb : ∀ i ∈ b, i < n) : ∀ q ∈ (incBlocks p a b : List (Tensor2 K × List ℕ)),
      q.1.rows.length = p ∧ q.1.cols = q.2.length ∧ q.1.Ok ∧ ∀ i ∈ q.2, i < n := by
  intro q hq
  simp only [incBlocks, List.mem_cons, List.not_mem_nil, or_false] at hq
  rcases hq with rfl | rfl
  · exact ⟨by simp, la.symm, tensor_eye_ok p, ha⟩
  · exact ⟨by simp, lb.symm, tensor_eye_map_ok p _ (by simp), hb⟩

/-- The trapezoid rows. -/
theorem trap_enc (m : Mip K) (hw : m.WF) (p : ℕ) (dt : K) (a b c d : List ℕ) (la : a.length = p)
    (lb : b.length = p) (lc : c.length = p) (ld : d.length = p) (ha : ∀ i ∈ a, i < m.n) (hb : ∀ i ∈ b, i < m.n)
    (hc : ∀ i ∈ c, i < m.n) (hd : ∀ i ∈ d, i < m.n) :
    ∃ m', m.addMConstr (trapRows p dt) [a, b, c, d] .eq (zeros p) = some m' ∧
      Enc m m' (fun v => ∀ i, i < p → (a.map v).getD i 0 = (b.map v).getD i 0 +
          dt / 2 * ((c.map v).getD i 0 + (d.map v).getD i 0))
        fun v => ∀ i, i < p → (a.map v).getD i 0 = (b.map v).getD i 0 +
          dt / 2 * ((c.map v).getD i 0 + (d.map v).getD i 0) := by
  obtain ⟨m', hm, s⟩ := mconstr_step m hw
    [(⟨p, eye p⟩, a), (⟨p, (eye p).map vneg⟩, b), (⟨p, (eye p).map (vsmul (-dt / 2))⟩, c),
      (⟨p, (eye p).map (vsmul (-dt / 2))⟩, d)] .eq (zeros p : Vec K) (by simp) (by
      intro q hq
      simp only [List.mem_cons, List.not_mem_nil, or_false] at hq
      rcases hq with rfl | rfl | rfl | rfl
      · exact ⟨by simp, la.symm, tensor_eye_ok p, ha⟩
      · exact ⟨by simp, lb.symm, tensor_eye_map_ok p _ (by simp), hb⟩
      · exact ⟨by simp, lc.symm, tensor_eye_map_ok p _ (by simp), hc⟩
      · exact ⟨by simp, ld.symm, tensor_eye_map_ok p _ (by simp), hd⟩)
  refine ⟨m', hm, (s.congr rfl fun v => ?_).enc0 hw⟩
  rw [length_zeros]
  refine forall_congr' fun i => forall_congr' fun hi => ?_
  simp only [List.map_cons, List.map_nil, List.sum_cons, List.sum_nil, Sense.Rel]
  rw [dot_map_eye _ _ _ hi, dot_map_eye _ _ _ hi, dot_map_eye _ _ _ hi, getD_eye p i hi,
    dot_eyeRow _ _ _ hi, dot_vneg_left, dot_eyeRow _ _ _ hi, dot_vsmul_left, dot_vsmul_left, dot_eyeRow _ _ _ hi,
    dot_eyeRow _ _ _ hi]
  simp only [getD_zeros]
  constructor <;> intro hh' <;> linarith

/-- The row `a - b - dt c = 0`. -/
theorem lrow_enc (m : Mip K) (hw : m.WF) (dt : K) (a b c : ℕ) (hd : [a, b, c].Nodup) (ha : a < m.n) (hb : b < m.n)
    (hc : c < m.n) :
    ∃ m', m.addLConstr [[1, -1, -dt]] [[a, b, c]] .eq 0 = some m' ∧
      Enc m m' (fun v => v a = v b + v c * dt) fun v => v a = v b + v c * dt := by
  obtain ⟨m', h1⟩ := addLConstr_isSome m hw [[1, -1, -dt]] [[a, b, c]] .eq 0 rfl rfl (by simpa using hd)
    (by simp [ha, hb, hc])
  refine ⟨m', h1, ((step_addLConstr h1 hw).congr rfl fun v => ?_).enc0 hw⟩
  simp only [Sense.Rel, List.flatten_cons, List.flatten_nil, List.append_nil, List.map_cons, List.map_nil,
    dot_cons, dot_nil_left]
  constructor <;> intro h <;> linarith

/-- As `CtrlEnc`, for variables that are all different. -/
def CtrlEncD (sys : CtrlConstr K) (n k : ℕ) (P : Option (Vec K) → Option (Vec K) → Prop)
    (Rel : Option (Vec K) → Option (Vec K) → Vec K → Vec K → Vec K → Prop) : Prop :=
  ∀ (m : Mip K) (x xn u : List ℕ) (aLo aUp : Option (Vec K)), m.WF → x.length = n → xn.length = n →
    u.length = k → (x ++ xn ++ u).Nodup → (∀ i ∈ x, i < m.n) → (∀ i ∈ xn, i < m.n) → (∀ i ∈ u, i < m.n) →
    P aLo aUp → ∃ m' s g, sys m x xn u aLo aUp = some (m', s, g) ∧
      Enc m m' (fun v => Rel aLo aUp (x.map v) (u.map v) (xn.map v)) fun v =>
        Rel aLo aUp (x.map v) (u.map v) (xn.map v)

theorem depsBelow_rel {n : ℕ} {x u xn : List ℕ} (hx : ∀ i ∈ x, i < n) (hu : ∀ i ∈ u, i < n) (hxn : ∀ i ∈ xn, i < n)
    (R : Vec K → Vec K → Vec K → Prop) : DepsBelow n fun v => R (x.map v) (u.map v) (xn.map v) := by
  intro v w hvw hv
  have q1 : x.map w = x.map v := List.map_congr_left fun i hi => (hvw i (hx i hi)).symm
  have q2 : xn.map w = xn.map v := List.map_congr_left fun i hi => (hvw i (hxn i hi)).symm
  have q3 : u.map w = u.map v := List.map_congr_left fun i hi => (hvw i (hu i hi)).symm
  simp only [q1, q2, q3]
  exact hv

end NNL.Model
