import Verif.Lemmas.LyapEnc
import Verif.Model.ReluSystem

/-!
# Changing the output of a network encoding
-/

set_option linter.unusedSectionVars false

namespace NNL.Model

open NNL NNL.Spec NNL.Props

variable {K : Type*} [Field K] [LinearOrder K] [IsStrictOrderedRing K]

/-- The output matrix of a network encoding. -/
def netOut (net : Net K) : Tensor2 K :=
  ⟨numUnits net.hidden, net.last.W.map fun w => setSlice (zeros (numUnits net.hidden)) (lastOff net.hidden) w⟩

/-- Another output. -/
abbrev MIC.withOut (c : MIC K) (Ai As : Option (Tensor2 K)) (C : Option (Vec K)) : MIC K :=
  { c with Aout_input := Ai, Aout_slack := As, Cout := C }

theorem relu_fields {net : Net K} {xs : ℕ} {xlo xup : Vec K} {m : Method K} {r : ReluMIC K}
    (h : outputConstraint net xs xlo xup m = some r) (hok : net.Ok xs) :
    r.mic.Ready xs ∧ r.mic.numOut = net.last.W.length ∧ r.mic.Aout_slack = some (netOut net) ∧
      r.mic.Cout = some net.last.b ∧ r.mic.Aout_input = none ∧ r.mic.Aout_binary = none ∧ (netOut net).Ok := by
  obtain ⟨-, -, h3, -⟩ := outputConstraint_some h
  obtain ⟨hrdy, n1, n2, n3, hA, hC, hAi, hAb⟩ := outputCons_ready h3 hok
  exact ⟨hrdy, n3, hA, hC, hAi, hAb, (hrdy.sized.shaped.aout_s _ hA).2.2⟩

/-- The rows of the output matrix give the network output. -/
theorem netOut_entry {net : Net K} {xs : ℕ} {xlo xup : Vec K} {m : Method K} {r : ReluMIC K}
    (h : outputConstraint net xs xlo xup m = some r) (hok : net.Ok xs) {x : Vec K} (hx : x.length = xs)
    (i : ℕ) (hi : i < net.last.W.length) :
    dot ((netOut net).rows.getD i []) (postacts net.hidden x).flatten + net.last.b.getD i 0
      = (net.eval x).getD i 0 := by
  obtain ⟨-, -, h3, -⟩ := outputConstraint_some h
  obtain ⟨-, n3, hA, hC, hAi, hAb, -⟩ := relu_fields h hok
  have e := outputCons_out (z := []) h3 hok hx
  rw [← e, MIC.out, n3, hAi, hA, hAb, hC]
  simp [mrow, hi, List.getD]

/-- Changing the output keeps the constraint set usable. -/
theorem relu_mod {net : Net K} {xs : ℕ} {xlo xup : Vec K} {m : Method K} {r : ReluMIC K}
    (h : outputConstraint net xs xlo xup m = some r) (hok : net.Ok xs) (Ai : Option (Tensor2 K))
    (As : Tensor2 K) (C : Vec K) (hAi : ShapeIs Ai As.rows.length xs) (hc : As.cols = numUnits net.hidden)
    (hAs : As.Ok) (hC : C.length = As.rows.length) (c' : MIC K)
    (hc' : c' = { r.mic with Aout_input := Ai, Aout_slack := some As, Cout := some C }) :
    c'.Ready xs ∧ c'.numOut = As.rows.length ∧ ∀ x s z, c'.Feas x s z ↔ r.mic.Feas x s z := by
  obtain ⟨-, -, h3, -⟩ := outputConstraint_some h
  obtain ⟨hrdy, n1, n2, n3, hA, hC0, hAi0, hAb0⟩ := outputCons_ready h3 hok
  have e1 : c'.numInput = xs := by
    have := hrdy.sized.input
    subst hc'
    cases Ai with
    | none => rw [← this]; simp [MIC.numInput, hAi0]
    | some A => exact (hAi A rfl).2.1
  have e2 : c'.numSlack = r.mic.numSlack := by subst hc'; rw [n1]; exact hc
  have e3 : c'.numBinary = r.mic.numBinary := by subst hc'; simp [MIC.numBinary, hAb0]
  have e4 : c'.numOut = As.rows.length := by
    subst hc'
    cases Ai with
    | none => rfl
    | some A => exact (hAi A rfl).1
  have i1 := hrdy.sized.input
  have sh := hrdy.sized.shaped
  refine ⟨⟨⟨?_, e1, ?_, ?_⟩, ?_, ?_⟩, e4, ?_⟩
  · constructor
    · rw [e4, e1]; subst hc'; exact hAi
    · rw [e4, e2, n1]
      subst hc'
      intro M hM
      simp only [Option.some.injEq] at hM
      subst hM
      exact ⟨rfl, hc, hAs⟩
    · rw [e4, e3]; subst hc'; simp only [hAb0]; exact shapeIs_none _ _
    · rw [e4]
      subst hc'
      intro v hv
      simp only [Option.some.injEq] at hv
      subst hv
      exact hC
    · rw [e1, ← i1]; subst hc'; exact sh.ain_x
    · rw [e2]; subst hc'; exact sh.ain_s
    · rw [e3]; subst hc'; exact sh.ain_z
    · subst hc'; exact sh.ain_rhs
    · rw [e1, ← i1]; subst hc'; exact sh.aeq_x
    · rw [e2]; subst hc'; exact sh.aeq_s
    · rw [e3]; subst hc'; exact sh.aeq_z
    · subst hc'; exact sh.aeq_rhs
  · rw [e2, ← hrdy.sized.slack]; subst hc'; rfl
  · rw [e3, ← hrdy.sized.binary]; subst hc'; rfl
  · have hl := hrdy.lens
    constructor
    · rw [e1, ← i1]; subst hc'; exact hl.ilo
    · rw [e1, ← i1]; subst hc'; exact hl.iup
    · rw [e2]; subst hc'; exact hl.slo
    · rw [e2]; subst hc'; exact hl.sup
    · rw [e3]; subst hc'; exact hl.blo
    · rw [e3]; subst hc'; exact hl.bup
  · have hr := hrdy.rows
    exact ⟨by subst hc'; exact hr.ineq, by subst hc'; exact hr.eq⟩
  · intro x s z
    constructor
    · rintro ⟨a, b, c, d, e⟩
      rw [e2] at a
      rw [e3] at b
      subst hc'
      exact ⟨a, b, c, d, e⟩
    · rintro ⟨a, b, c, d, e⟩
      rw [← e2] at a
      rw [← e3] at b
      subst hc'
      exact ⟨a, b, c, d, e⟩

theorem mic_eta {c : MIC K} {Ai As : Option (Tensor2 K)} (h1 : c.Aout_input = Ai) (h2 : c.Aout_slack = As)
    (C : Option (Vec K)) :
    { c with Cout := C } = { c with Aout_input := Ai, Aout_slack := As, Cout := C } := by
  subst h1 h2
  rfl

/-- The changed output. -/
theorem relu_mod_out {net : Net K} {xs : ℕ} {xlo xup : Vec K} {m : Method K} {r : ReluMIC K}
    (h : outputConstraint net xs xlo xup m = some r) (hok : net.Ok xs) {Ai : Option (Tensor2 K)}
    {As : Tensor2 K} {C : Vec K} {c' : MIC K}
    (hc' : c' = { r.mic with Aout_input := Ai, Aout_slack := some As, Cout := some C })
    (hn : c'.numOut = As.rows.length) (x s z : Vec K) :
    c'.out x s z = (List.range As.rows.length).map fun i =>
      dot (mrow Ai i) x + dot (As.rows.getD i []) s + C.getD i 0 := by
  obtain ⟨-, -, -, -, -, hAb, -⟩ := relu_fields h hok
  rw [MIC.out, hn]
  subst hc'
  refine List.map_congr_left fun i _ => ?_
  simp [hAb, mrow]

theorem addCout_eq {c : MIC K} {w v : Vec K} (h : c.Cout = some w) (hl : w.length = v.length) :
    addCout c v = some { c with Cout := some (vadd w v) } := by
  simp [addCout, h, hl]

/-- With a changed output, feasibility still forces the slacks to be the unit outputs. -/
theorem relu_mod_exact {net : Net K} {xs : ℕ} {xlo xup : Vec K} {m : Method K} {r : ReluMIC K}
    (h : outputConstraint net xs xlo xup m = some r) (hok : net.Ok xs) (hm : MethodValid net xlo xup m)
    (hl : xlo.length = xs) (hu : xup.length = xs) {c' : MIC K}
    (hf : ∀ x s z, c'.Feas x s z ↔ r.mic.Feas x s z) {x y F : Vec K} (hx : x.length = xs)
    (hF : ∀ z, c'.out x (postacts net.hidden x).flatten z = F) :
    (∃ s z, c'.Feas x s z ∧ c'.out x s z = y) ↔ InBox xlo xup x ∧ y = F := by
  obtain ⟨-, -, h3, -⟩ := outputConstraint_some h
  constructor
  · rintro ⟨s, z, h1, rfl⟩
    obtain ⟨b, e, -⟩ := C12_sound h3 hok hx hl hu ((hf x s z).1 h1)
    exact ⟨b, by rw [e, hF]⟩
  · rintro ⟨hb, rfl⟩
    obtain ⟨s, z, h1⟩ := C12_complete h3 hok hl hu hb (C11_bounds_sound h hok hm hb).1
    obtain ⟨-, e, -⟩ := C12_sound h3 hok hx hl hu h1
    exact ⟨s, z, (hf x s z).2 h1, by rw [e, hF]⟩

/-- The same for the unchanged encoding, with feasibility only. -/
theorem relu_feas_exact {net : Net K} {xs : ℕ} {xlo xup : Vec K} {m : Method K} {r : ReluMIC K}
    (h : outputConstraint net xs xlo xup m = some r) (hok : net.Ok xs) (hm : MethodValid net xlo xup m)
    (hl : xlo.length = xs) (hu : xup.length = xs) {x : Vec K} (hx : x.length = xs) :
    ((∃ s z, r.mic.Feas x s z) ↔ InBox xlo xup x) ∧
      ∀ s z, r.mic.Feas x s z → s = (postacts net.hidden x).flatten := by
  obtain ⟨-, -, h3, -⟩ := outputConstraint_some h
  refine ⟨⟨?_, ?_⟩, ?_⟩
  · rintro ⟨s, z, h1⟩
    exact (C12_sound h3 hok hx hl hu h1).1
  · intro hb
    exact C12_complete h3 hok hl hu hb (C11_bounds_sound h hok hm hb).1
  · intro s z h1
    exact (C12_sound h3 hok hx hl hu h1).2.1

/-- Adding an exact constraint set as the dynamics. -/
theorem addAuto_enc {c : Option (ReluMIC K)} {r : ReluMIC K} (hc : c = some r) {n : ℕ} (hr : r.mic.Ready n)
    (ho : r.mic.numOut = n) {Rel : Vec K → Vec K → Prop}
    (he : ∀ x y, x.length = n → ((∃ s z, r.mic.Feas x s z ∧ r.mic.out x s z = y) ↔ Rel x y)) :
    SysEnc (addAuto c) n Rel Rel := by
  intro m x xn hw lx lxn _ hx hxn
  obtain ⟨m', h1, -, h3⟩ := mic_out_enc m hw r.mic x xn (by rwa [lx]) hx (by omega) hxn
  refine ⟨m', List.range' m.n r.mic.numSlack, List.range' (m.n + r.mic.numSlack) r.mic.numBinary,
    by simp [addAuto, hc, h1], h3.weaken ?_ ?_⟩
  · intro v _ hv
    exact (he _ _ (by simpa using lx)).2 hv
  · intro v _ hv
    exact (he _ _ (by simpa using lx)).1 ⟨_, _, hv.1, hv.2⟩

theorem InBox_append {lo up lo' up' x u : Vec K} (h1 : x.length = lo.length) (h2 : x.length = up.length)
    (h3 : u.length = lo'.length) (h4 : u.length = up'.length) :
    InBox (lo ++ lo') (up ++ up') (x ++ u) ↔ InBox lo up x ∧ InBox lo' up' u := by
  have e1 : ∀ (a b : Vec K) i, i < a.length → (a ++ b).getD i 0 = a.getD i 0 := fun a b i hi =>
    getD_append_lt a b i 0 hi
  have e2 : ∀ (a b : Vec K) i, (a ++ b).getD (a.length + i) 0 = b.getD i 0 := fun a b i =>
    getD_append_add a b i 0
  constructor
  · rintro ⟨-, -, h⟩
    refine ⟨⟨h1, h2, fun i hi => ?_⟩, h3, h4, fun i hi => ?_⟩
    · have := h i (by simp; omega)
      rwa [e1 _ _ _ (by omega), e1 _ _ _ (by omega), e1 _ _ _ (by omega)] at this
    · have := h (x.length + i) (by simp; omega)
      rw [e2] at this
      rw [h1, e2] at this
      rwa [← h1, h2, e2] at this
  · rintro ⟨⟨-, -, ha⟩, -, -, hb⟩
    refine ⟨by simp [h1, h3], by simp [h2, h4], fun i hi => ?_⟩
    by_cases hlt : i < x.length
    · rw [e1 _ _ _ (by omega), e1 _ _ _ (by omega), e1 _ _ _ (by omega)]
      exact ha i hlt
    · obtain ⟨j, rfl⟩ : ∃ j, i = x.length + j := ⟨i - x.length, by omega⟩
      have := hb j (by simp at hi; omega)
      rw [e2]
      have a1 : (lo ++ lo').getD (x.length + j) 0 = lo'.getD j 0 := by rw [h1, e2]
      have a2 : (up ++ up').getD (x.length + j) 0 = up'.getD j 0 := by rw [h2, e2]
      rw [a1, a2]
      exact this

/-- A system with input adds exactly `Rel aLo aUp x u x⁺` whenever the additional input bounds satisfy `P`. -/
def CtrlEnc (sys : CtrlConstr K) (n k : ℕ) (P : Option (Vec K) → Option (Vec K) → Prop)
    (Rel : Option (Vec K) → Option (Vec K) → Vec K → Vec K → Vec K → Prop) : Prop :=
  ∀ (m : Mip K) (x xn u : List ℕ) (aLo aUp : Option (Vec K)), m.WF → x.length = n → xn.length = n →
    u.length = k → (∀ i ∈ x, i < m.n) → (∀ i ∈ xn, i < m.n) → (∀ i ∈ u, i < m.n) → P aLo aUp →
    ∃ m' s g, sys m x xn u aLo aUp = some (m', s, g) ∧
      Enc m m' (fun v => Rel aLo aUp (x.map v) (u.map v) (xn.map v)) fun v =>
        Rel aLo aUp (x.map v) (u.map v) (xn.map v)

/-- Adding an exact constraint set as the dynamics of a system with input. -/
theorem addCtrl_enc {uLo uUp : Vec K} {c : Option (Vec K) → Option (Vec K) → Option (ReluMIC K)} {n k : ℕ}
    {P : Option (Vec K) → Option (Vec K) → Prop}
    {Rel : Option (Vec K) → Option (Vec K) → Vec K → Vec K → Vec K → Prop}
    (h : ∀ aLo aUp, P aLo aUp → ∃ lo up r, tightenU max uLo aLo = some lo ∧ tightenU min uUp aUp = some up ∧
      c (some lo) (some up) = some r ∧ r.mic.Ready (n + k) ∧ r.mic.numOut = n ∧
      ∀ x u y, x.length = n → u.length = k →
        ((∃ s z, r.mic.Feas (x ++ u) s z ∧ r.mic.out (x ++ u) s z = y) ↔ Rel aLo aUp x u y)) :
    CtrlEnc (addCtrl uLo uUp c) n k P Rel := by
  intro m x xn u aLo aUp hw lx lxn lu hx hxn hu hP
  obtain ⟨lo, up, r, h1, h2, h3, hr, ho, he⟩ := h aLo aUp hP
  obtain ⟨m', h1', -, h3'⟩ := mic_out_enc m hw r.mic (x ++ u) xn (by simpa [lx, lu] using hr)
    (by
      intro i hi
      rcases List.mem_append.1 hi with hi | hi
      · exact hx i hi
      · exact hu i hi) (by omega) hxn
  refine ⟨m', List.range' m.n r.mic.numSlack, List.range' (m.n + r.mic.numSlack) r.mic.numBinary,
    by simp [addCtrl, h1, h2, h3, h1'], h3'.weaken ?_ ?_⟩
  · intro v _ hv
    rw [List.map_append]
    exact (he _ _ _ (by simpa using lx) (by simpa using lu)).2 hv
  · intro v _ hv
    rw [List.map_append] at hv
    exact (he _ _ _ (by simpa using lx) (by simpa using lu)).1 ⟨_, _, hv.1, hv.2⟩

/-- Matrix constraints on any number of groups of variables. -/
theorem mconstr_step (m : Mip K) (hw : m.WF) (bs : List (Tensor2 K × List ℕ)) (sense : Sense) (b : Vec K)
    (hne : bs ≠ []) (h : ∀ p ∈ bs, p.1.rows.length = b.length ∧ p.1.cols = p.2.length ∧ p.1.Ok ∧
      ∀ i ∈ p.2, i < m.n) :
    ∃ m', m.addMConstr (bs.map Prod.fst) (bs.map Prod.snd) sense b = some m' ∧
      Step m m' 0 fun v => ∀ i, i < b.length →
        sense.Rel (bs.map fun p => dot (p.1.rows.getD i []) (p.2.map v)).sum (b.getD i 0) := by
  have hcols : ∀ l : List (Tensor2 K × List ℕ), (∀ p ∈ l, p.1.cols = p.2.length) →
      ((l.map Prod.fst).map Tensor2.cols).sum = (l.map Prod.snd).flatten.length := by
    intro l
    induction l with
    | nil => simp
    | cons p l ih =>
      intro hl
      have := ih fun q hq => hl q (List.mem_cons_of_mem _ hq)
      have := hl p (by simp)
      simp only [List.map_cons, List.sum_cons, List.flatten_cons, List.length_append]
      omega
  obtain ⟨m', h'⟩ := addMConstr_isSome m (A := bs.map Prod.fst) (x := bs.map Prod.snd) (sense := sense) (b := b)
    (by simp) (by simpa using hne)
    (by
      intro A hA
      obtain ⟨p, hp, rfl⟩ := List.mem_map.1 hA
      exact (h p hp).1)
    (hcols bs fun p hp => (h p hp).2.1)
    (by
      intro i hi
      obtain ⟨l, hl, hi⟩ := List.mem_flatten.1 hi
      obtain ⟨p, hp, rfl⟩ := List.mem_map.1 hl
      exact (h p hp).2.2.2 i hi)
  refine ⟨m', h', (step_addMConstr h' hw).congr rfl fun v => ?_⟩
  refine forall_congr' fun i => forall_congr' fun hi => ?_
  have key : ∀ l : List (Tensor2 K × List ℕ), (∀ p ∈ l, p ∈ bs) →
      dot (catRow (l.map Prod.fst) i) ((l.map Prod.snd).flatten.map v) =
        (l.map fun p => dot (p.1.rows.getD i []) (p.2.map v)).sum := by
    intro l
    induction l with
    | nil => simp
    | cons p l ih =>
      intro hl
      obtain ⟨h1, h2, h3, -⟩ := h p (hl p (by simp))
      rw [List.map_cons, List.map_cons, dot_catRow_cons _ _ _ _ _ _ h3 h2 (by omega),
        ih fun q hq => hl q (List.mem_cons_of_mem _ hq)]
      simp
  rw [key bs fun p hp => hp]

end NNL.Model
