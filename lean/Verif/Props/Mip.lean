import Verif.Lemmas.MipTorch
import Verif.Props.MicOps

/-!
# C28, C29, C30: the program builder

`Mip.Feas` is the meaning of the Gurobi model, `Mip.TorchRows` and `Mip.ZetaOk` the documented meaning of
the torch data, `MIC.Feas`/`MIC.out` the documented meaning of a constraint set.
-/

set_option linter.unusedSectionVars false

namespace NNL.Props

open NNL NNL.Model

variable {K : Type*} [Field K] [LinearOrder K]

/-! ### Histories of calls -/

/-- A call of the public interface of `GurobiTorchMILP`. -/
inductive Call (K : Type*) where
  | addVars (num : ℕ) (lb ub : List (Option K)) (vt : VType)
  | addLConstr (coeffs : List (Vec K)) (xs : List (List ℕ)) (sense : Sense) (rhs : K)
  | addMConstr (A : List (Tensor2 K)) (x : List (List ℕ)) (sense : Sense) (b : Vec K)
  | addMIC (c : MIC K) (input : List ℕ) (out : Option (List ℕ)) (name : BinName) (bt : VType)
  | setObjective (coeffs : List (Vec K)) (xs : List (List ℕ)) (const : K) (maximize : Bool)
  | removeRelaxation

/-- The program after one call (`none`: the call raised). -/
def Call.run (m : Mip K) : Call K → Option (Mip K)
  | .addVars num lb ub vt => (m.addVars num lb ub vt).map Prod.fst
  | .addLConstr coeffs xs sense rhs => m.addLConstr coeffs xs sense rhs
  | .addMConstr A x sense b => m.addMConstr A x sense b
  | .addMIC c input out name bt => (m.addMIC c input out name bt).map Prod.fst
  | .setObjective coeffs xs const maximize => m.setObjective coeffs xs const maximize
  | .removeRelaxation => some m.removeRelaxation

/-- The program after a sequence of calls none of which raised. -/
def runAll (m : Mip K) : List (Call K) → Option (Mip K)
  | [] => some m
  | c :: cs => (c.run m).bind fun m' => runAll m' cs

/-! ### What each primitive preserves -/

/-- The dictionaries are right, and every feasible point of the Gurobi model satisfies the torch data. -/
structure Mirror (m : Mip K) : Prop where
  wf : m.WF
  twf : m.TWF
  torch : ∀ v, m.Feas v → m.TorchRows v ∧ m.ZetaOk v
  cons : ∀ v, m.TorchRows v → ∀ c ∈ m.cons, c.Ok v

/-- Every point of the torch data is feasible for the Gurobi model. -/
def Back (m : Mip K) : Prop := ∀ v, m.TorchRows v → m.ZetaOk v → m.Feas v

theorem mirror_empty : Mirror (Mip.empty : Mip K) := by
  refine ⟨Mip.WF.empty, Mip.TWF.empty, fun v _ => ?_, fun v _ c hc => by simp [Mip.empty] at hc⟩
  simp [Mip.TorchRows, Mip.ZetaOk, Mip.empty]

theorem back_empty : Back (Mip.empty : Mip K) := by
  intro v _ _
  simp [Mip.Feas, Mip.empty]

variable [IsStrictOrderedRing K]

theorem recordedOk_of_ok {lb ub : Option K} {x : K} (h : (newGVar .continuous lb ub).Ok x) :
    RecordedOk lb ub x := by
  obtain ⟨h1, h2, _⟩ := h
  refine ⟨?_, ?_, ?_⟩
  · intro c q hq
    cases lb with
    | none => simp [selLb] at hq
    | some l =>
      simp [selLb] at hq
      obtain ⟨_, rfl, rfl⟩ := hq
      have := h1 l rfl
      linarith
  · intro c q hq
    cases ub with
    | none => simp [selUb] at hq
    | some u =>
      simp [selUb] at hq
      obtain ⟨_, rfl, rfl⟩ := hq
      have := h2 u rfl
      linarith
  · intro c q hq
    cases lb <;> cases ub <;> simp [selFix] at hq
    rename_i l u
    obtain ⟨e, rfl, rfl⟩ := hq
    subst e
    have a1 := h1 _ rfl
    have a2 := h2 _ rfl
    linarith

theorem ok_of_recordedOk {lb ub : Option K} {x : K} (h : RecordedOk lb ub x)
    (hle : ∀ l u, lb = some l → ub = some u → l ≤ u) : (newGVar .continuous lb ub).Ok x := by
  obtain ⟨h1, h2, h3⟩ := h
  refine ⟨?_, ?_, by simp [newGVar]⟩
  · intro l hl
    simp only [newGVar] at hl
    subst hl
    cases ub with
    | none => have := h1 (-1) (-l) (by simp [selLb, ltB]); linarith
    | some u =>
      rcases lt_or_eq_of_le (hle l u rfl rfl) with hlt | rfl
      · have := h1 (-1) (-l) (by simp [selLb, ltB, hlt]); linarith
      · have := h3 1 l (by simp [selFix]); linarith
  · intro u hu
    simp only [newGVar] at hu
    subst hu
    cases lb with
    | none => have := h2 1 u (by simp [selUb, ltB]); linarith
    | some l =>
      rcases lt_or_eq_of_le (hle l u rfl rfl) with hlt | rfl
      · have := h2 1 u (by simp [selUb, ltB, hlt]); linarith
      · have := h3 1 l (by simp [selFix]); linarith

theorem zeta_addVars {m m' : Mip K} {num : ℕ} {lb ub : List (Option K)} {vt : VType} {ids : List ℕ}
    (h : m.addVars num lb ub vt = some (m', ids)) :
    m'.zeta = if vt = .continuous then m.zeta else m.zeta ++ ids := by
  unfold Mip.addVars at h
  split_ifs at h with hl
  cases vt <;> simp at h
  all_goals
    obtain ⟨rfl, rfl⟩ := h
    simp

theorem getElem?_addVars {m m' : Mip K} {num : ℕ} {lb ub : List (Option K)} {vt : VType} {ids : List ℕ}
    (h : m.addVars num lb ub vt = some (m', ids)) (k : ℕ) (hk : k < num) :
    m'.vars[m.n + k]? = some (newGVar vt (lb.getD k none) (ub.getD k none)) := by
  obtain ⟨h1, h2, _, _, h5, _, _⟩ := addVars_inv h
  rw [h5, List.getElem?_append_right (by simp [Mip.n])]
  simp [Mip.n, List.getD, h1, h2, hk]

theorem zetaOk_addVars {m m' : Mip K} {num : ℕ} {lb ub : List (Option K)} {vt : VType} {ids : List ℕ}
    (h : m.addVars num lb ub vt = some (m', ids)) (hw : m.WF) (v : ℕ → K) :
    m'.ZetaOk v ↔ m.ZetaOk v ∧ (vt ≠ .continuous → ∀ k, k < num →
      if vt = .binary then v (m.n + k) = 0 ∨ v (m.n + k) = 1 else 0 ≤ v (m.n + k) ∧ v (m.n + k) ≤ 1) := by
  obtain ⟨h1, h2, h3, h4, h5, _, _⟩ := addVars_inv h
  have hz := zeta_addVars h
  have old : ∀ i ∈ m.zeta, m'.vars[i]? = m.vars[i]? := by
    intro i hi
    have : i < m.n := (hw.cover i).1 (by simp [hi])
    rw [h5, List.getElem?_append_left this]
  unfold Mip.ZetaOk
  by_cases hvt : vt = .continuous
  · rw [hz, if_pos hvt]
    constructor
    · intro H
      exact ⟨fun i hi g hg => H i hi g (by rw [old i hi]; exact hg), fun hne => absurd hvt hne⟩
    · rintro ⟨H, _⟩ i hi g hg
      exact H i hi g (by rw [← old i hi]; exact hg)
  · rw [hz, if_neg hvt]
    have hb : ∀ k, (newGVar vt (lb.getD k none) (ub.getD k none)).isBin = decide (vt = .binary) := by
      intro k
      cases vt <;> simp [newGVar] at hvt h3 ⊢
    constructor
    · intro H
      refine ⟨fun i hi g hg => H i (by simp [hi]) g (by rw [old i hi]; exact hg), fun _ k hk => ?_⟩
      have := H (m.n + k) (by rw [h4]; simp [List.mem_range'_1, hk]) _ (getElem?_addVars h k hk)
      rw [hb] at this
      simpa using this
    · rintro ⟨H1, H2⟩ i hi g hg
      rcases List.mem_append.1 hi with hi | hi
      · exact H1 i hi g (by rw [← old i hi]; exact hg)
      · rw [h4, List.mem_range'_1] at hi
        have hk : i - m.n < num := by omega
        have e : m.n + (i - m.n) = i := by omega
        have h6 := getElem?_addVars h (i - m.n) hk
        rw [e, hg] at h6
        simp at h6
        have := H2 hvt (i - m.n) hk
        rw [e] at this
        have hb' := hb (i - m.n)
        have hg' : g.isBin = decide (vt = .binary) := by
          rw [h6]
          simpa [List.getD] using hb'
        rw [hg']
        simpa using this

theorem mirror_addVars {m m' : Mip K} {num : ℕ} {lb ub : List (Option K)} {vt : VType} {ids : List ℕ}
    (h : m.addVars num lb ub vt = some (m', ids)) (hm : Mirror m) : Mirror m' := by
  obtain ⟨t1, t2⟩ := addVars_torch h hm.wf hm.twf
  obtain ⟨h1, h2, h3, h4, h5, h6, _⟩ := addVars_inv h
  refine ⟨addVars_wf h hm.wf, t1, ?_, ?_⟩
  · intro v hv
    rw [addVars_feas h] at hv
    obtain ⟨hf, hn⟩ := hv
    have hn' : ∀ k, k < num →
        (newGVar vt (lb.getD k none) (ub.getD k none)).Ok (v (m.n + k)) := by
      intro k hk
      have := hn k (by rw [h4]; simpa using hk)
      rwa [h4, getD_map_range' v _ _ _ hk] at this
    refine ⟨(t2 v).2 ⟨(hm.torch v hf).1, ?_⟩, (zetaOk_addVars h hm.wf v).2 ⟨(hm.torch v hf).2, ?_⟩⟩
    · rintro rfl k hk
      exact recordedOk_of_ok (hn' k hk)
    · intro hvt k hk
      have := hn' k hk
      cases vt with
      | continuous => exact absurd rfl hvt
      | other => exact absurd rfl h3
      | binary => simpa using this.2.2 rfl
      | relax =>
        obtain ⟨a, b, _⟩ := this
        simp only [newGVar] at a b
        rw [maxLo_le] at a
        rw [le_minUp] at b
        simpa using ⟨a.1 0 rfl, b.1 1 rfl⟩
  · intro v hv c hc
    rw [h6] at hc
    exact hm.cons v ((t2 v).1 hv).1 c hc

/-- The bounds that the torch data can express: proper intervals for continuous variables, at least
[0, 1] for binaries. -/
def PlainBounds (lb ub : List (Option K)) (vt : VType) : Prop :=
  ∀ k, (vt = .continuous → ∀ l u, lb.getD k none = some l → ub.getD k none = some u → l ≤ u) ∧
    (vt ≠ .continuous → (∀ l, lb.getD k none = some l → l ≤ 0) ∧ ∀ u, ub.getD k none = some u → 1 ≤ u)

theorem back_addVars {m m' : Mip K} {num : ℕ} {lb ub : List (Option K)} {vt : VType} {ids : List ℕ}
    (h : m.addVars num lb ub vt = some (m', ids)) (hm : Mirror m) (hb : Back m)
    (hp : PlainBounds lb ub vt) : Back m' := by
  obtain ⟨t1, t2⟩ := addVars_torch h hm.wf hm.twf
  obtain ⟨h1, h2, h3, h4, h5, h6, _⟩ := addVars_inv h
  intro v ht hz
  rw [zetaOk_addVars h hm.wf] at hz
  rw [t2] at ht
  rw [addVars_feas h]
  refine ⟨hb v ht.1 hz.1, ?_⟩
  intro k hk
  rw [h4] at hk ⊢
  simp at hk
  rw [getD_map_range' v _ _ _ hk]
  cases vt with
  | continuous => exact ok_of_recordedOk (ht.2 rfl k hk) ((hp k).1 rfl)
  | other => exact absurd rfl h3
  | binary =>
    have hz' := hz.2 (by simp) k hk
    simp only [if_true] at hz'
    obtain ⟨p1, p2⟩ := (hp k).2 (by simp)
    refine ⟨fun l hl => ?_, fun u hu => ?_, fun _ => hz'⟩
    · have := p1 l hl
      rcases hz' with h | h <;> rw [h] <;> linarith
    · have := p2 u hu
      rcases hz' with h | h <;> rw [h] <;> linarith
  | relax =>
    have hz' := hz.2 (by simp) k hk
    simp only [reduceCtorEq, if_false] at hz'
    obtain ⟨p1, p2⟩ := (hp k).2 (by simp)
    refine ⟨?_, ?_, by simp [newGVar]⟩
    · simp only [newGVar]
      rw [maxLo_le]
      refine ⟨fun l hl => by simp at hl; rw [← hl]; exact hz'.1, fun l hl => ?_⟩
      have := p1 l hl
      linarith [hz'.1]
    · simp only [newGVar]
      rw [le_minUp]
      refine ⟨fun l hl => by simp at hl; rw [← hl]; exact hz'.2, fun l hl => ?_⟩
      have := p2 l hl
      linarith [hz'.2]

theorem zetaOk_congr {m m' : Mip K} (h1 : m'.vars = m.vars) (h2 : m'.zeta = m.zeta) (v : ℕ → K) :
    m'.ZetaOk v ↔ m.ZetaOk v := by
  unfold Mip.ZetaOk
  rw [h1, h2]

theorem mirror_addLConstr {m m' : Mip K} {coeffs : List (Vec K)} {xs : List (List ℕ)} {sense : Sense}
    {rhs : K} (h : m.addLConstr coeffs xs sense rhs = some m') (hm : Mirror m) :
    Mirror m' ∧ (Back m → Back m') := by
  obtain ⟨t1, t2⟩ := addLConstr_torch h hm.wf hm.twf
  obtain ⟨h1, h2, _, h4, _⟩ := addLConstr_inv h hm.wf
  refine ⟨⟨addLConstr_wf h hm.wf, t1, ?_, ?_⟩, ?_⟩
  · intro v hv
    rw [addLConstr_feas h hm.wf] at hv
    rw [t2, zetaOk_congr h1 h4]
    exact ⟨⟨(hm.torch v hv.1).1, hv.2⟩, (hm.torch v hv.1).2⟩
  · intro v hv c hc
    rw [t2] at hv
    rw [h2, List.mem_append, List.mem_singleton] at hc
    rcases hc with hc | rfl
    · exact hm.cons v hv.1 c hc
    · exact hv.2
  · intro hb v ht hz
    rw [t2] at ht
    rw [zetaOk_congr h1 h4] at hz
    rw [addLConstr_feas h hm.wf]
    exact ⟨hb v ht.1 hz, ht.2⟩

theorem mirror_addMConstr {m m' : Mip K} {A : List (Tensor2 K)} {x : List (List ℕ)} {sense : Sense}
    {b : Vec K} (h : m.addMConstr A x sense b = some m') (hm : Mirror m) :
    Mirror m' ∧ (Back m → Back m') := by
  obtain ⟨t1, t2⟩ := addMConstr_torch h hm.wf hm.twf
  obtain ⟨h1, h2, _, h4, _⟩ := addMConstr_inv h
  refine ⟨⟨addMConstr_wf h hm.wf, t1, ?_, ?_⟩, ?_⟩
  · intro v hv
    rw [addMConstr_feas h] at hv
    rw [t2, zetaOk_congr h1 h4]
    exact ⟨⟨(hm.torch v hv.1).1, hv.2⟩, (hm.torch v hv.1).2⟩
  · intro v hv c hc
    rw [t2] at hv
    rw [h2, List.mem_append, List.mem_map] at hc
    rcases hc with hc | ⟨i, hi, rfl⟩
    · exact hm.cons v hv.1 c hc
    · exact hv.2 i (by simpa using hi)
  · intro hb v ht hz
    rw [t2] at ht
    rw [zetaOk_congr h1 h4] at hz
    rw [addMConstr_feas h]
    exact ⟨hb v ht.1 hz, ht.2⟩

/-! Bound changes. -/

theorem getElem?_raiseLb (vars : List (GVar K)) (ids : List ℕ) (l : List (Option K)) (i : ℕ) (g : GVar K)
    (h : vars[i]? = some g) : ∃ g', (raiseLb vars ids l)[i]? = some g' ∧ g'.isBin = g.isBin ∧
      ∀ x : K, g'.Ok x → g.Ok x := by
  induction ids generalizing vars l g with
  | nil => exact ⟨g, by simpa [raiseLb] using h, rfl, fun x h => h⟩
  | cons j js ih => cases l with
    | nil => exact ⟨g, by simpa [raiseLb] using h, rfl, fun x h => h⟩
    | cons a l =>
      rw [raiseLb]
      by_cases hj : j = i
      · obtain ⟨g', h1, h2, h3⟩ := ih (vars.modify j fun g => { g with lb := maxLo g.lb a }) l
          { g with lb := maxLo g.lb a } (by rw [List.getElem?_modify, h]; simp [hj])
        refine ⟨g', h1, h2, fun x hx => ?_⟩
        have := h3 x hx
        simp only [GVar.Ok, maxLo_le] at this ⊢
        exact ⟨this.1.1, this.2⟩
      · obtain ⟨g', h1, h2, h3⟩ := ih (vars.modify j fun g => { g with lb := maxLo g.lb a }) l
          g (by rw [List.getElem?_modify, h]; simp [hj])
        exact ⟨g', h1, h2, h3⟩

theorem getElem?_reduceUb (vars : List (GVar K)) (ids : List ℕ) (l : List (Option K)) (i : ℕ)
    (g : GVar K) (h : vars[i]? = some g) : ∃ g', (reduceUb vars ids l)[i]? = some g' ∧
      g'.isBin = g.isBin ∧ ∀ x : K, g'.Ok x → g.Ok x := by
  induction ids generalizing vars l g with
  | nil => exact ⟨g, by simpa [reduceUb] using h, rfl, fun x h => h⟩
  | cons j js ih => cases l with
    | nil => exact ⟨g, by simpa [reduceUb] using h, rfl, fun x h => h⟩
    | cons a l =>
      rw [reduceUb]
      by_cases hj : j = i
      · obtain ⟨g', h1, h2, h3⟩ := ih (vars.modify j fun g => { g with ub := minUp g.ub a }) l
          { g with ub := minUp g.ub a } (by rw [List.getElem?_modify, h]; simp [hj])
        refine ⟨g', h1, h2, fun x hx => ?_⟩
        have := h3 x hx
        simp only [GVar.Ok, le_minUp] at this ⊢
        exact ⟨this.1, this.2.1.1, this.2.2⟩
      · obtain ⟨g', h1, h2, h3⟩ := ih (vars.modify j fun g => { g with ub := minUp g.ub a }) l
          g (by rw [List.getElem?_modify, h]; simp [hj])
        exact ⟨g', h1, h2, h3⟩

theorem mirror_setVarBound {m m' : Mip K} {ids : List ℕ} {lo up : Option (List (Option K))}
    (h : m.setVarBound ids lo up = some m') (hm : Mirror m) : Mirror m' := by
  obtain ⟨t1, t2⟩ := setVarBound_torch h hm.twf
  have hw := setVarBound_wf h hm.wf
  obtain ⟨rfl, _⟩ := setVarBound_inv h
  have hg : ∀ (i : ℕ) (g : GVar K), m.vars[i]? = some g → ∃ g' : GVar K,
      (reduceUb (raiseLb m.vars ids (lo.getD [])) ids (up.getD []))[i]? = some g' ∧
      g'.isBin = g.isBin ∧ ∀ x : K, g'.Ok x → g.Ok x := by
    intro i g hg
    obtain ⟨g1, a1, a2, a3⟩ := getElem?_raiseLb m.vars ids (lo.getD []) i g hg
    obtain ⟨g2, b1, b2, b3⟩ := getElem?_reduceUb _ ids (up.getD []) i g1 a1
    exact ⟨g2, b1, by rw [b2, a2], fun x hx => a3 x (b3 x hx)⟩
  refine ⟨hw, t1, ?_, ?_⟩
  · intro v hv
    have hf : m.Feas v := by
      refine ⟨fun i g hi => ?_, hv.2⟩
      obtain ⟨g', c1, _, c3⟩ := hg i g hi
      exact c3 _ (hv.1 i g' c1)
    obtain ⟨a, b⟩ := hm.torch v hf
    refine ⟨(t2 v).2 a, ?_⟩
    intro i hi g' hg'
    have hin : i < m.vars.length := (hm.wf.cover i).1 (by simp [show i ∈ m.zeta from hi])
    obtain ⟨g2, c1, c2, _⟩ := hg i _ (List.getElem?_eq_getElem hin)
    have e : g2 = g' := by
      have : some g2 = some g' := by rw [← c1, ← hg']
      simpa using this
    rw [← e, c2]
    exact b i hi _ (List.getElem?_eq_getElem hin)
  · intro v hv c hc
    exact hm.cons v ((t2 v).1 hv) c hc

theorem setVarBound_none {m m' : Mip K} {ids : List ℕ} (h : m.setVarBound ids none none = some m') :
    m' = m := by
  obtain ⟨rfl, _⟩ := setVarBound_inv h
  have : ∀ (vars : List (GVar K)), raiseLb vars ids ([] : List (Option K)) = vars := by
    intro vars; cases ids <;> simp [raiseLb]
  have h2 : ∀ (vars : List (GVar K)), reduceUb vars ids ([] : List (Option K)) = vars := by
    intro vars; cases ids <;> simp [reduceUb]
  simp [this, h2]

theorem mirror_addBlock {m m' : Mip K} {Ax As Az : Option (Tensor2 K)} {rhs : Option (Vec K)}
    {sense : Sense} {x s z : List ℕ} (h : m.addBlock Ax As Az rhs sense x s z = some m')
    (hm : Mirror m) : Mirror m' ∧ (Back m → Back m') := by
  unfold Mip.addBlock at h
  cases rhs with
  | none => simp at h; rw [← h]; exact ⟨hm, fun h => h⟩
  | some b =>
    simp only at h
    split_ifs at h with hb
    · exact mirror_addMConstr h hm
    · simp at h; rw [← h]; exact ⟨hm, fun h => h⟩

theorem mirror_addOut {m m' : Mip K} {c : MIC K} {o : Option (List ℕ)} {x s z : List ℕ}
    (h : m.addOut c o x s z = some m') (hm : Mirror m) : Mirror m' ∧ (Back m → Back m') := by
  cases o with
  | none => simp [Mip.addOut] at h; rw [← h]; exact ⟨hm, fun h => h⟩
  | some o => simp only [Mip.addOut] at h; exact mirror_addMConstr h hm

theorem mirror_addSlack {m m' : Mip K} {c : MIC K} {ids : List ℕ} (h : m.addSlack c = some (m', ids))
    (hm : Mirror m) : Mirror m' ∧ (c.slack_lo = none → c.slack_up = none → Back m → Back m') := by
  unfold Mip.addSlack at h
  split_ifs at h with hs
  · simp only [Option.bind_eq_bind] at h
    rw [Option.bind_eq_some_iff] at h
    obtain ⟨⟨m1, i1⟩, h1, h⟩ := h
    rw [Option.bind_eq_some_iff] at h
    obtain ⟨m2, h2, h⟩ := h
    simp at h
    obtain ⟨rfl, rfl⟩ := h
    have hm1 := mirror_addVars h1 hm
    refine ⟨mirror_setVarBound h2 hm1, ?_⟩
    intro e1 e2 hb
    rw [e1, e2] at h2
    rw [setVarBound_none h2]
    refine back_addVars h1 hm hb ?_
    intro k
    refine ⟨?_, fun h => absurd rfl h⟩
    intro _ l u hl
    simp [noBound, List.getD, List.getElem?_replicate] at hl
    split_ifs at hl <;> simp at hl
  · simp at h
    obtain ⟨rfl, rfl⟩ := h
    exact ⟨hm, fun _ _ h => h⟩

theorem mirror_addBin {m m' : Mip K} {c : MIC K} {name : BinName} {bt : VType} {ids : List ℕ}
    (h : m.addBin c name bt = some (m', ids)) (hm : Mirror m) :
    Mirror m' ∧ (c.binary_lo = none → c.binary_up = none → Back m → Back m') := by
  unfold Mip.addBin at h
  split_ifs at h with hs
  · cases name with
    | fresh =>
      simp only [Option.bind_eq_bind] at h
      rw [Option.bind_eq_some_iff] at h
      obtain ⟨⟨m1, i1⟩, h1, h⟩ := h
      rw [Option.bind_eq_some_iff] at h
      obtain ⟨m2, h2, h⟩ := h
      simp at h
      obtain ⟨rfl, rfl⟩ := h
      have hm1 := mirror_addVars h1 hm
      refine ⟨mirror_setVarBound h2 hm1, ?_⟩
      intro e1 e2 hb
      rw [e1, e2] at h2
      rw [setVarBound_none h2]
      refine back_addVars h1 hm hb ?_
      intro k
      by_cases hk : k < c.binSize
      · have e1 : (scalarBound c.binSize (0 : K)).getD k none = some 0 := by
          simp [scalarBound, List.getD, hk]
        have e2 : (scalarBound c.binSize (1 : K)).getD k none = some 1 := by
          simp [scalarBound, List.getD, hk]
        rw [e1, e2]
        simp
      · have e1 : (scalarBound c.binSize (0 : K)).getD k none = none := by
          simp [scalarBound, List.getD, hk]
        have e2 : (scalarBound c.binSize (1 : K)).getD k none = none := by
          simp [scalarBound, List.getD, hk]
        rw [e1, e2]
        simp
    | given zs =>
      simp only at h
      split_ifs at h with hl
      simp at h
      obtain ⟨rfl, rfl⟩ := h
      exact ⟨hm, fun _ _ h => h⟩
  · simp at h
    obtain ⟨rfl, rfl⟩ := h
    exact ⟨hm, fun _ _ h => h⟩

/-- A constraint set without variable bounds. -/
def NoBounds (c : MIC K) : Prop :=
  c.input_lo = none ∧ c.input_up = none ∧ c.slack_lo = none ∧ c.slack_up = none ∧
    c.binary_lo = none ∧ c.binary_up = none

theorem mirror_addMIC {m m' : Mip K} {c : MIC K} {x s z : List ℕ} {o : Option (List ℕ)} {name : BinName}
    {bt : VType} (h : m.addMIC c x o name bt = some (m', s, z)) (hm : Mirror m) :
    Mirror m' ∧ (NoBounds c → Back m → Back m') := by
  obtain ⟨m0, m1, m2, m3, m4, h0, h1, h2, h3, h4, h5⟩ := addMIC_inv h
  have w0 := mirror_setVarBound h0 hm
  obtain ⟨w1, b1⟩ := mirror_addSlack h1 w0
  obtain ⟨w2, b2⟩ := mirror_addBin h2 w1
  obtain ⟨w3, b3⟩ := mirror_addBlock h3 w2
  obtain ⟨w4, b4⟩ := mirror_addBlock h4 w3
  obtain ⟨w5, b5⟩ := mirror_addOut h5 w4
  refine ⟨w5, ?_⟩
  rintro ⟨n1, n2, n3, n4, n5, n6⟩ hb
  rw [n1, n2] at h0
  rw [← setVarBound_none h0] at hb
  exact b5 (b4 (b3 (b2 n5 n6 (b1 n3 n4 hb))))

theorem mirror_setObjective {m m' : Mip K} {coeffs : List (Vec K)} {xs : List (List ℕ)} {const : K}
    {mx : Bool} (h : m.setObjective coeffs xs const mx = some m') (hm : Mirror m) :
    Mirror m' ∧ (Back m → Back m') := by
  unfold Mip.setObjective at h
  split_ifs at h with hl
  simp only [Option.map_eq_some_iff] at h
  obtain ⟨t, _, rfl⟩ := h
  exact ⟨⟨⟨hm.wf.cons_lt, hm.wf.ridx, hm.wf.zidx, hm.wf.nodup, hm.wf.cover⟩,
    ⟨hm.twf.inR, hm.twf.inZ, hm.twf.eqR, hm.twf.eqZ⟩, hm.torch, hm.cons⟩, fun h => h⟩

theorem getElem?_removeRelaxation (m : Mip K) (i : ℕ) :
    m.removeRelaxation.vars[i]? =
      m.vars[i]?.map fun g => if i ∈ m.zeta then { g with isBin := true } else g := by
  simp only [Mip.removeRelaxation, List.getElem?_map, List.getElem?_zipIdx, Option.map_map]
  congr 1
  funext g
  simp

theorem mirror_removeRelaxation {m : Mip K} (hm : Mirror m) :
    Mirror m.removeRelaxation ∧ (Back m → Back m.removeRelaxation) := by
  have hn : m.removeRelaxation.n = m.n := by simp [Mip.removeRelaxation, Mip.n]
  have hfe : ∀ v, m.removeRelaxation.Feas v → m.Feas v := by
    intro v hv
    refine ⟨fun i g hg => ?_, hv.2⟩
    have := hv.1 i (if i ∈ m.zeta then { g with isBin := true } else g)
      (by rw [getElem?_removeRelaxation, hg]; rfl)
    split_ifs at this with hi
    · refine ⟨this.1, this.2.1, fun _ => this.2.2 rfl⟩
    · exact this
  refine ⟨⟨⟨?_, hm.wf.ridx, hm.wf.zidx, hm.wf.nodup, ?_⟩,
    ⟨hm.twf.inR, hm.twf.inZ, hm.twf.eqR, hm.twf.eqZ⟩, ?_, hm.cons⟩, ?_⟩
  · intro c hc i hi
    rw [hn]; exact hm.wf.cons_lt c hc i hi
  · intro i
    rw [hn]; exact hm.wf.cover i
  · intro v hv
    refine ⟨(hm.torch v (hfe v hv)).1, ?_⟩
    intro i hi g hg
    have hi' : i ∈ m.zeta := hi
    have hok := hv.1 i g hg
    rw [getElem?_removeRelaxation, Option.map_eq_some_iff] at hg
    obtain ⟨g0, _, rfl⟩ := hg
    rw [if_pos hi'] at hok ⊢
    simpa using hok.2.2 rfl
  · intro hb v ht hz
    have hz' : m.ZetaOk v := by
      intro i hi g hg
      have := hz i hi _ (by rw [getElem?_removeRelaxation, hg]; rfl)
      simp only [if_pos hi, if_true] at this
      split_ifs
      · exact this
      · rcases this with h | h <;> rw [h] <;> simp
    have hf := hb v ht hz'
    refine ⟨fun i g hg => ?_, hf.2⟩
    have hg' := hg
    rw [getElem?_removeRelaxation, Option.map_eq_some_iff] at hg
    obtain ⟨g0, hg0, rfl⟩ := hg
    have hok := hf.1 i g0 hg0
    split_ifs with hi
    · refine ⟨hok.1, hok.2.1, fun _ => ?_⟩
      have := hz i hi _ hg'
      simpa [hi] using this
    · exact hok

/-- A call that does not create or change a bound which the torch data cannot express. -/
def Call.Plain : Call K → Prop
  | .addVars _ lb ub vt => PlainBounds lb ub vt
  | .addMIC c _ _ _ _ => NoBounds c
  | _ => True

theorem mirror_run {m m' : Mip K} {c : Call K} (h : c.run m = some m') (hm : Mirror m) :
    Mirror m' ∧ (c.Plain → Back m → Back m') := by
  cases c with
  | addVars num lb ub vt =>
    simp only [Call.run, Option.map_eq_some_iff] at h
    obtain ⟨⟨m1, ids⟩, h, rfl⟩ := h
    exact ⟨mirror_addVars h hm, fun hp hb => back_addVars h hm hb hp⟩
  | addLConstr coeffs xs sense rhs =>
    obtain ⟨a, b⟩ := mirror_addLConstr h hm
    exact ⟨a, fun _ => b⟩
  | addMConstr A x sense b =>
    obtain ⟨a, b⟩ := mirror_addMConstr h hm
    exact ⟨a, fun _ => b⟩
  | addMIC c input out name bt =>
    simp only [Call.run, Option.map_eq_some_iff] at h
    obtain ⟨⟨m1, s, z⟩, h, rfl⟩ := h
    exact mirror_addMIC h hm
  | setObjective coeffs xs const mx =>
    obtain ⟨a, b⟩ := mirror_setObjective h hm
    exact ⟨a, fun _ => b⟩
  | removeRelaxation =>
    simp only [Call.run, Option.some.injEq] at h
    subst h
    obtain ⟨a, b⟩ := mirror_removeRelaxation hm
    exact ⟨a, fun _ => b⟩

theorem mirror_runAll {m m' : Mip K} {cs : List (Call K)} (h : runAll m cs = some m') (hm : Mirror m) :
    Mirror m' ∧ ((∀ c ∈ cs, c.Plain) → Back m → Back m') := by
  induction cs generalizing m with
  | nil => simp [runAll] at h; subst h; exact ⟨hm, fun _ h => h⟩
  | cons c cs ih =>
    rw [runAll, Option.bind_eq_some_iff] at h
    obtain ⟨m1, h1, h2⟩ := h
    obtain ⟨a, b⟩ := mirror_run h1 hm
    obtain ⟨a', b'⟩ := ih h2 a
    refine ⟨a', fun hp hb => b' (fun d hd => hp d (by simp [hd])) (b (hp c (by simp)) hb)⟩

/-! ### C28 -/

/-- **C28**, first half, for every history of calls: a point that is feasible for the Gurobi model
satisfies all rows of the torch data, and its binaries are 0/1 (in [0,1] while relaxed). -/
theorem C28_gurobi_implies_torch (cs : List (Call K)) (m : Mip K) (h : runAll Mip.empty cs = some m)
    (v : ℕ → K) (hv : m.Feas v) : m.TorchRows v ∧ m.ZetaOk v :=
  (mirror_runAll h mirror_empty).1.torch v hv

/-- **C28**, for every history of calls: a point that satisfies the rows of the torch data satisfies every
linear constraint of the Gurobi model. -/
theorem C28_torch_implies_constraints (cs : List (Call K)) (m : Mip K)
    (h : runAll Mip.empty cs = some m) (v : ℕ → K) (hv : m.TorchRows v) : ∀ c ∈ m.cons, c.Ok v :=
  (mirror_runAll h mirror_empty).1.cons v hv

/-- **C28**, exact form. The full claim (without `Plain`) is false, see the counterexamples below: missing
are histories with bounds on binaries other than [0,1], empty intervals, and constraint sets carrying
variable bounds. -/
theorem C28_torch_iff_gurobi_partial (cs : List (Call K)) (m : Mip K)
    (h : runAll Mip.empty cs = some m) (hp : ∀ c ∈ cs, c.Plain) (v : ℕ → K) :
    m.Feas v ↔ m.TorchRows v ∧ m.ZetaOk v :=
  ⟨C28_gurobi_implies_torch cs m h v, fun hv => (mirror_runAll h mirror_empty).2 hp back_empty v hv.1 hv.2⟩

/-- Every variable of the program is exactly once in `r` or in `zeta`, and the dictionaries
`r_indices`, `zeta_indices` give its position. -/
theorem C28_dictionaries (cs : List (Call K)) (m : Mip K) (h : runAll Mip.empty cs = some m) :
    (m.r ++ m.zeta).Nodup ∧ (∀ i, i ∈ m.r ++ m.zeta ↔ i < m.vars.length) ∧
      (∀ i j, m.rIdx.lookup i = some j → m.r[j]? = some i) ∧
      ∀ i j, m.zIdx.lookup i = some j → m.zeta[j]? = some i := by
  have hw := (mirror_runAll h mirror_empty).1.wf
  refine ⟨hw.nodup, hw.cover, ?_, ?_⟩
  · intro i j hij
    rw [hw.ridx] at hij
    simpa using (lookup_zipIdx_some hij).2
  · intro i j hij
    rw [hw.zidx] at hij
    simpa using (lookup_zipIdx_some hij).2

/-- A history used in the examples: `x` in [0, 5], a binary `b`, `x - 5 b <= 0`, `x + b >= 1`. -/
def exCalls : List (Call ℚ) :=
  [.addVars 1 [some 0] [some 5] .continuous, .addVars 1 [some 0] [some 1] .binary,
   .addLConstr [[1], [-5]] [[0], [1]] .le 0, .addMConstr [⟨2, [[1, 1]]⟩] [[0, 1]] .ge [1]]

/-- The hypotheses of C28 hold for a history with both kinds of variables and constraints, and the
resulting program has a feasible point. -/
theorem C28_example : ∃ m, runAll Mip.empty exCalls = some m ∧ (∀ c ∈ exCalls, c.Plain) ∧
    m.TorchRows (fun i => if i = 0 then 2 else 1) ∧ m.rhsIn.length = 4 := by
  refine ⟨_, rfl, ?_, ?_, rfl⟩
  · intro c hc
    simp [exCalls] at hc
    rcases hc with rfl | rfl | rfl | rfl
    · intro k
      rcases k with _ | k <;> simp
    · intro k
      rcases k with _ | k <;> simp
    · trivial
    · trivial
  · refine ⟨?_, ?_⟩
    · intro i hi
      have hi' : i < 4 := hi
      interval_cases i <;> decide +kernel
    · intro i hi
      have hi' : i < 0 := hi
      omega

/-- The full claim C28 is false: `add_mixed_integer_linear_constraints` tightens the bound of a slack
variable in Gurobi only. Here the Gurobi model needs `slack >= 5`, but the torch data accept
`slack = 0`. -/
theorem C28_bounds_counterexample : ∃ (cs : List (Call ℚ)) (m : Mip ℚ) (v : ℕ → ℚ),
    runAll Mip.empty cs = some m ∧ m.TorchRows v ∧ m.ZetaOk v ∧ ¬ m.Feas v := by
  refine ⟨[.addMIC { slack_lo := some [some 5] } [] none .fresh .binary], _, fun _ => 0, rfl, ?_, ?_, ?_⟩
  · constructor
    · intro i hi
      simp [Mip.empty, MIC.slackSize, varSize, noBound, boundRows, selLb, selUb] at hi
    · intro i hi
      simp [Mip.empty, MIC.slackSize, varSize, noBound, boundRows, selFix] at hi
  · intro i hi
    simp [Mip.empty] at hi
  · intro h
    have := (h.1 0 ⟨some 5, none, false⟩ rfl).1 5 rfl
    norm_num at this

/-- Likewise a continuous variable with an empty interval, here [1, 0], is not recorded at all. -/
theorem C28_empty_interval_counterexample : ∃ (cs : List (Call ℚ)) (m : Mip ℚ) (v : ℕ → ℚ),
    runAll Mip.empty cs = some m ∧ m.TorchRows v ∧ m.ZetaOk v ∧ ¬ m.Feas v := by
  refine ⟨[.addVars 1 [some 1] [some 0] .continuous], _, fun _ => 7, rfl, ?_, ?_, ?_⟩
  · constructor
    · intro i hi
      have : i < 0 := hi
      omega
    · intro i hi
      have : i < 0 := hi
      omega
  · intro i hi
    simp [Mip.empty] at hi
  · intro h
    have := (h.1 0 ⟨some 1, some 0, false⟩ rfl).2.1 0 rfl
    norm_num at this

/-- Likewise bounds on a binary variable, here fixed to 1, are not recorded. -/
theorem C28_binary_bounds_counterexample : ∃ (cs : List (Call ℚ)) (m : Mip ℚ) (v : ℕ → ℚ),
    runAll Mip.empty cs = some m ∧ m.TorchRows v ∧ m.ZetaOk v ∧ ¬ m.Feas v := by
  refine ⟨[.addVars 1 [some 1] [some 1] .binary], _, fun _ => 0, rfl, ?_, ?_, ?_⟩
  · constructor
    · intro i hi
      have : i < 0 := hi
      omega
    · intro i hi
      have : i < 0 := hi
      omega
  · intro i hi g hg
    have : i < 1 := by
      have h1 : i ∈ [0] := hi
      simp at h1; omega
    interval_cases i
    have h2 : some (⟨some 1, some 1, true⟩ : GVar ℚ) = some g := hg
    simp at h2
    subst h2
    simp
  · intro h
    have := (h.1 0 ⟨some 1, some 1, true⟩ rfl).1 1 rfl
    norm_num at this

/-! ### C29 -/

/-- **C29** with new binary variables. The new slack and binary variables are fresh, and an assignment is
feasible afterwards iff it was feasible before, the new variables form a feasible point of the constraint
set at the input variables, and the output variables (if given) equal the encoded output. -/
theorem C29_add_constraint_set (m m' : Mip K) (hw : m.WF) (c : MIC K) (input : List ℕ)
    (out : Option (List ℕ)) (s z : List ℕ) (hc : c.Sized input.length) (hi : ∀ i ∈ input, i < m.n)
    (h : m.addMIC c input out .fresh .binary = some (m', s, z)) :
    s = List.range' m.n c.numSlack ∧ z = List.range' (m.n + c.numSlack) c.numBinary ∧
    m'.n = m.n + c.numSlack + c.numBinary ∧ m'.WF ∧
    ∀ v, m'.Feas v ↔ m.Feas v ∧ c.Feas (input.map v) (s.map v) (z.map v) ∧
      ∀ o, out = some o → ∀ i, i < o.length →
        v (o.getD i 0) = (c.out (input.map v) (s.map v) (z.map v)).getD i 0 := by
  obtain ⟨h1, h2, h3, h4, h5, h6⟩ := addMIC_fresh_spec h hw hc hi
  refine ⟨h1, h2, h3, h4, fun v => ?_⟩
  rw [h6]
  have hz : (z.map v).length = c.numBinary := by rw [h2]; simp
  have hs : (s.map v).length = c.numSlack := by rw [h1]; simp
  have hbin := newOk_binary (z.map v)
  rw [hz] at hbin
  rw [hbin]
  constructor
  · rintro ⟨a, ⟨b1, b2, b3, b4⟩, c1, c2, c3⟩
    exact ⟨a, ⟨hs, hz, c1, b1, b2.1, b2.2, b3.1, b3.2, c2, c3⟩, b4⟩
  · rintro ⟨a, ⟨_, _, b3, b4, b5, b6, b7, b8, b9, b10⟩, c1⟩
    exact ⟨a, ⟨b4, ⟨b5, b6⟩, ⟨b7, b8⟩, c1⟩, b3, b9, b10⟩

/-- **C29**, every feasible point of the constraint set extends a feasible point of the old program (no
point of the old program is lost). -/
theorem C29_extends (m m' : Mip K) (hw : m.WF) (c : MIC K) (input : List ℕ)
    (out : Option (List ℕ)) (s z : List ℕ) (hc : c.Sized input.length) (hi : ∀ i ∈ input, i < m.n)
    (ho : ∀ o, out = some o → ∀ i ∈ o, i < m.n)
    (h : m.addMIC c input out .fresh .binary = some (m', s, z)) (v : ℕ → K) (hv : m.Feas v)
    (sv zv : Vec K) (hf : c.Feas (input.map v) sv zv)
    (hout : ∀ o, out = some o → ∀ i, i < o.length → v (o.getD i 0) = (c.out (input.map v) sv zv).getD i 0) :
    ∃ v', (∀ i, i < m.n → v' i = v i) ∧ m'.Feas v' ∧ s.map v' = sv ∧ z.map v' = zv := by
  obtain ⟨h1, h2, h3, h4, h6⟩ := C29_add_constraint_set m m' hw c input out s z hc hi h
  have hlt : ∀ i, i < m.n → upd (upd v m.n sv) (m.n + c.numSlack) zv i = v i := by
    intro i hi
    rw [upd_lt _ _ _ _ (by omega), upd_lt _ _ _ _ hi]
  have es : s.map (upd (upd v m.n sv) (m.n + c.numSlack) zv) = sv := by
    rw [h1, map_upd_lt _ _ _ _ (mem_range'_lt le_rfl), map_upd v m.n sv _ hf.len_s]
  have ez : z.map (upd (upd v m.n sv) (m.n + c.numSlack) zv) = zv := by
    rw [h2, map_upd _ _ _ _ hf.len_z]
  have ei : input.map (upd (upd v m.n sv) (m.n + c.numSlack) zv) = input.map v :=
    List.map_congr_left fun i hi' => hlt i (hi i hi')
  refine ⟨_, hlt, (h6 _).2 ⟨?_, ?_, ?_⟩, es, ez⟩
  · exact (hw.feas_congr fun i hi => hlt i hi).2 hv
  · rw [es, ez, ei]; exact hf
  · intro o ho' i hi'
    rw [es, ez, ei, hlt _ (ho o ho' _ (by simp [List.getD, hi'])), hout o ho' i hi']

/-- **C29** with given binary variables: the program is restricted by the rows and by the bounds of inputs
and slacks. Bounds on binaries carried by the constraint set are *not* imposed
(gurobi_torch_mip.py 772-776). -/
theorem C29_add_constraint_set_given (m m' : Mip K) (hw : m.WF) (c : MIC K) (input : List ℕ)
    (out : Option (List ℕ)) (s z zs : List ℕ) (bt : VType) (hc : c.Sized input.length)
    (hi : ∀ i ∈ input, i < m.n) (h : m.addMIC c input out (.given zs) bt = some (m', s, z)) :
    s = List.range' m.n c.numSlack ∧ z.length = c.numBinary ∧ (c.numBinary ≠ 0 → z = zs) ∧
    m'.n = m.n + c.numSlack ∧ m'.WF ∧
    ∀ v, m'.Feas v ↔ m.Feas v ∧ c.Holds (input.map v) (s.map v) (z.map v) ∧
      LoOk c.input_lo (input.map v) ∧ UpOk c.input_up (input.map v) ∧
      LoOk c.slack_lo (s.map v) ∧ UpOk c.slack_up (s.map v) ∧
      ∀ o, out = some o → ∀ i, i < o.length →
        v (o.getD i 0) = (c.out (input.map v) (s.map v) (z.map v)).getD i 0 := by
  obtain ⟨h1, h2, h3, h4, h5, _, h6⟩ := addMIC_given_spec h hw hc hi
  refine ⟨h1, h2, h3, h4, h5, fun v => ?_⟩
  rw [h6, MIC.At]
  tauto

/-- A program with two free variables. -/
def exTwo : Mip ℚ := ((Mip.empty : Mip ℚ).addVars 2 (noBound 2) (noBound 2) .continuous).get rfl |>.1

theorem exTwo_wf : exTwo.WF :=
  addVars_wf (m := Mip.empty) (num := 2) (lb := noBound 2) (ub := noBound 2) (vt := .continuous)
    (ids := [0, 1]) rfl Mip.WF.empty

/-- The hypotheses of C29 are met by the constraint set of C26 on a program with two variables, the call
returns, and the result has a feasible point. -/
theorem C29_example : ∃ (m' : Mip ℚ) (s z : List ℕ), exTwo.WF ∧ exMic.Sized 1 ∧
    exTwo.addMIC exMic [0] (some [1]) .fresh .binary = some (m', s, z) ∧
    m'.Feas (fun i => if i = 0 then -3 else -6) := by
  have hs : exMic.Sized [0].length := ⟨exMic_shaped, rfl, rfl, rfl⟩
  have hc : ∃ t, exTwo.addMIC exMic [0] (some [1]) .fresh .binary = some t := ⟨_, rfl⟩
  obtain ⟨⟨m', s, z⟩, hc⟩ := hc
  refine ⟨m', s, z, exTwo_wf, hs, hc, ?_⟩
  obtain ⟨h1, h2, _, _, h⟩ := C29_add_constraint_set exTwo m' exTwo_wf exMic [0] (some [1]) s z hs
    (by intro i hi; simp at hi; subst hi; exact Nat.succ_pos 1) hc
  have e1 : s = [] := h1
  have e2 : z = [] := h2
  subst e1 e2
  rw [h]
  refine ⟨⟨?_, fun c hc => absurd (show c ∈ [] from hc) (by simp)⟩, ⟨rfl, rfl, by simp [IsBin], ?_, ?_⟩, ?_⟩
  · intro i g hg
    have hi : i < 2 := (List.getElem?_eq_some_iff.1 hg).1
    interval_cases i
    all_goals
      have : some (⟨none, none, false⟩ : GVar ℚ) = some g := hg
      simp at this
      subst this
      simp [GVar.Ok]
  · rw [MIC.holds_iff]
    simp [exMic, MIC.numIneq, MIC.numEq, mrow]
    norm_num
  · simp [MIC.BoundsHold, exMic, LoOk, UpOk]
  · intro o ho i hi
    simp at ho
    subst ho
    have hi : i < 1 := hi
    interval_cases i
    simp [exMic, MIC.out, MIC.numOut, mrow]
    norm_num

/-- A slack variable that occurs only in the output rows is counted by `num_slack` but no variable is
created for it, and the call raises. -/
theorem C29_output_only_slack_counterexample :
    ∃ c : MIC ℚ, c.Shaped ∧ c.numInput = 1 ∧ c.numSlack = 1 ∧ c.Feas [0] [0] [] ∧
      exTwo.addMIC c [0] (some [1]) .fresh .binary = none := by
  refine ⟨{ exMic with Aout_slack := some ⟨1, [[1]]⟩ }, ?_, rfl, rfl, ⟨rfl, rfl, by simp [IsBin], ?_, ?_⟩,
    rfl⟩
  · constructor <;> simp [exMic, ShapeIs, MIC.numOut, MIC.numIneq, MIC.numEq, MIC.numInput, numVar,
      MIC.numSlack, MIC.numBinary, Tensor2.Ok]
  · rw [MIC.holds_iff]
    simp [exMic, MIC.numIneq, MIC.numEq, mrow]
  · simp [MIC.BoundsHold, exMic, LoOk, UpOk]

/-! ### The objective -/

/-- The linear expression passed to `setObjective`. -/
def objExpr (coeffs : List (Vec K)) (xs : List (List ℕ)) (v : ℕ → K) : K :=
  (List.zipWith (fun c x => dot c (x.map v)) coeffs xs).sum

theorem dot_set (c : Vec K) (x : Vec K) (j : ℕ) (a : K) (hj : j < c.length) (h0 : c.getD j 0 = 0) :
    dot (c.set j a) x = dot c x + a * x.getD j 0 := by
  induction c generalizing x j with
  | nil => simp at hj
  | cons b c ih => cases x with
    | nil => simp
    | cons y x => cases j with
      | zero => simp at h0; simp [h0]; ring
      | succ j =>
        simp at hj h0
        simp [ih x j hj (by simpa using h0)]
        ring

theorem objLoop_spec {m : Mip K} (hw : m.WF) (v : ℕ → K) (l : List (K × ℕ)) (hl : ∀ t ∈ l, t.2 < m.n)
    (ur uz : List ℕ) (cr cz cr' cz' : Vec K) (h1 : cr.length = m.r.length)
    (h2 : cz.length = m.zeta.length) (h3 : ∀ j, j ∉ ur → cr.getD j 0 = 0)
    (h4 : ∀ j, j ∉ uz → cz.getD j 0 = 0) (h : objLoop m.rIdx m.zIdx l ur uz cr cz = some (cr', cz')) :
    dot cr' (m.r.map v) + dot cz' (m.zeta.map v) =
      dot cr (m.r.map v) + dot cz (m.zeta.map v) + (l.map fun t => t.1 * v t.2).sum := by
  induction l generalizing ur uz cr cz with
  | nil => simp [objLoop] at h; simp [h]
  | cons t l ih =>
    obtain ⟨c, i⟩ := t
    have hl' : ∀ t ∈ l, t.2 < m.n := fun t ht => hl t (by simp [ht])
    rw [objLoop] at h
    cases hr : m.rIdx.lookup i with
    | some j =>
      rw [hr] at h
      simp only at h
      split_ifs at h with hj
      rw [hw.ridx] at hr
      obtain ⟨_, hj2⟩ := lookup_zipIdx_some hr
      simp only [Nat.sub_zero] at hj2
      obtain ⟨hlt, e⟩ := List.getElem?_eq_some_iff.1 hj2
      rw [ih hl' (j :: ur) uz (cr.set j c) cz (by simpa using h1) h2 ?_ h4 h,
        dot_set _ _ _ _ (by omega) (h3 j hj)]
      · simp [List.getD, hlt, e]
        ring
      · intro k hk
        simp at hk
        have := h3 k hk.2
        simpa [List.getD, List.getElem?_set, Ne.symm hk.1] using this
    | none =>
      rw [hr] at h
      simp only at h
      cases hz : m.zIdx.lookup i with
      | some j =>
        rw [hz] at h
        simp only at h
        split_ifs at h with hj
        rw [hw.zidx] at hz
        obtain ⟨_, hj2⟩ := lookup_zipIdx_some hz
        simp only [Nat.sub_zero] at hj2
        obtain ⟨hlt, e⟩ := List.getElem?_eq_some_iff.1 hj2
        rw [ih hl' ur (j :: uz) cr (cz.set j c) h1 (by simpa using h2) h3 ?_ h,
          dot_set _ _ _ _ (by omega) (h4 j hj)]
        · simp [List.getD, hlt, e]
          ring
        · intro k hk
          simp at hk
          have := h4 k hk.2
          simpa [List.getD, List.getElem?_set, Ne.symm hk.1] using this
      | none =>
        exfalso
        rw [hw.ridx] at hr
        rw [hw.zidx] at hz
        have := (hw.cover i).2 (hl (c, i) (by simp))
        rw [List.mem_append] at this
        rcases this with h | h
        · exact lookup_zipIdx_none.1 hr h
        · exact lookup_zipIdx_none.1 hz h

theorem sum_zip_dot (c : Vec K) (x : List ℕ) (v : ℕ → K) :
    ((c.zip x).map fun t => t.1 * v t.2).sum = dot c (x.map v) := by
  induction c generalizing x with
  | nil => simp
  | cons a c ih => cases x with
    | nil => simp
    | cons i x => simp [ih]

theorem setObjective_inv {m m' : Mip K} {coeffs : List (Vec K)} {xs : List (List ℕ)} {const : K}
    {mx : Bool} (h : m.setObjective coeffs xs const mx = some m') :
    coeffs.length = xs.length ∧ ∃ cr cz, objLoop m.rIdx m.zIdx
      (List.zipWith (fun c v => c.zip v) coeffs xs).flatten [] [] (zeros m.r.length)
        (zeros m.zeta.length) = some (cr, cz) ∧ m' = { m with obj := some ⟨cr, cz, const, mx⟩ } := by
  unfold Mip.setObjective at h
  split_ifs at h with hl
  simp only [Option.map_eq_some_iff] at h
  obtain ⟨⟨cr, cz⟩, h, rfl⟩ := h
  exact ⟨hl.1, cr, cz, h, rfl⟩

theorem setObjective_feas {m m' : Mip K} {coeffs : List (Vec K)} {xs : List (List ℕ)} {const : K}
    {mx : Bool} (h : m.setObjective coeffs xs const mx = some m') (v : ℕ → K) :
    m'.Feas v ↔ m.Feas v := by
  obtain ⟨_, cr, cz, _, rfl⟩ := setObjective_inv h
  rfl

/-- **C63**: the objective passed to Gurobi (and recorded in `c_r`, `c_zeta`, `c_constant`) is the linear
expression that was asked for, whatever the order of the variables. -/
theorem C63_setObjective (m m' : Mip K) (hw : m.WF) (coeffs : List (Vec K)) (xs : List (List ℕ))
    (const : K) (mx : Bool) (hx : ∀ x ∈ xs, ∀ i ∈ x, i < m.n)
    (h : m.setObjective coeffs xs const mx = some m') (v : ℕ → K) :
    m'.objVal v = objExpr coeffs xs v + const ∧ m'.obj.map MilpObj.maximize = some mx := by
  obtain ⟨hlen, cr, cz, h', rfl⟩ := setObjective_inv h
  clear h
  refine ⟨?_, rfl⟩
  have z0 : ∀ (n j : ℕ), (zeros n : Vec K).getD j 0 = 0 := by
    intro n j; simp [zeros, List.getD, List.getElem?_replicate]; split_ifs <;> simp
  have := objLoop_spec hw v _ ?_ [] [] _ _ cr cz (by simp) (by simp) (fun j _ => z0 _ j)
    (fun j _ => z0 _ j) h'
  · simp only [Mip.objVal]
    rw [this]
    simp only [dot_zeros_left, zero_add, objExpr]
    congr 1
    clear this h' hlen
    induction coeffs generalizing xs with
    | nil => simp
    | cons c cs ih => cases xs with
      | nil => simp
      | cons x xs =>
        simp only [List.zipWith_cons_cons, List.flatten_cons, List.map_append, List.sum_append,
          List.sum_cons, sum_zip_dot]
        rw [ih xs (fun y hy => hx y (by simp [hy]))]
  · intro t ht
    rw [List.mem_flatten] at ht
    obtain ⟨l, hl, htl⟩ := ht
    rw [List.mem_iff_getElem] at hl
    obtain ⟨k, hk, rfl⟩ := hl
    simp at hk
    rw [List.getElem_zipWith] at htl
    exact hx _ (List.getElem_mem hk.2) _ (List.of_mem_zip (show (t.1, t.2) ∈ _ from htl)).2

theorem objLoop_isSome {m : Mip K} (hw : m.WF) (l : List (K × ℕ)) (ur uz : List ℕ) (cr cz : Vec K)
    (hn : (l.map Prod.snd).Nodup) (hu : ∀ t ∈ l, (∀ j ∈ ur, m.r[j]? ≠ some t.2) ∧
      ∀ j ∈ uz, m.zeta[j]? ≠ some t.2) :
    ∃ t, objLoop m.rIdx m.zIdx l ur uz cr cz = some t := by
  induction l generalizing ur uz cr cz with
  | nil => exact ⟨_, rfl⟩
  | cons t l ih =>
    obtain ⟨c, i⟩ := t
    simp only [List.map_cons, List.nodup_cons] at hn
    have hne : ∀ t ∈ l, t.2 ≠ i := by
      rintro t ht rfl
      exact hn.1 (List.mem_map_of_mem ht)
    rw [objLoop]
    cases hr : m.rIdx.lookup i with
    | some j =>
      have hr' := hr
      rw [hw.ridx] at hr'
      have hj : m.r[j]? = some i := by simpa using (lookup_zipIdx_some hr').2
      have : j ∉ ur := fun h => (hu (c, i) (by simp)).1 j h hj
      simp only [this, if_false]
      refine ih _ _ _ _ hn.2 fun t ht => ⟨?_, (hu t (by simp [ht])).2⟩
      intro k hk
      rcases List.mem_cons.1 hk with rfl | hk
      · rw [hj]
        intro e
        exact hne t ht (by simpa using e.symm)
      · exact (hu t (by simp [ht])).1 k hk
    | none =>
      simp only
      cases hz : m.zIdx.lookup i with
      | some j =>
        have hz' := hz
        rw [hw.zidx] at hz'
        have hj : m.zeta[j]? = some i := by simpa using (lookup_zipIdx_some hz').2
        have : j ∉ uz := fun h => (hu (c, i) (by simp)).2 j h hj
        simp only [this, if_false]
        refine ih _ _ _ _ hn.2 fun t ht => ⟨(hu t (by simp [ht])).1, ?_⟩
        intro k hk
        rcases List.mem_cons.1 hk with rfl | hk
        · rw [hj]
          intro e
          exact hne t ht (by simpa using e.symm)
        · exact (hu t (by simp [ht])).2 k hk
      | none => exact ih _ _ _ _ hn.2 fun t ht => hu t (by simp [ht])

/-- **C63**, acceptance: `setObjective` returns when there are enough coefficients and no variable occurs
twice. -/
theorem C63_setObjective_accepts (m : Mip K) (hw : m.WF) (coeffs : List (Vec K)) (xs : List (List ℕ))
    (const : K) (mx : Bool) (hl : coeffs.length = xs.length)
    (hlen : ∀ t ∈ coeffs.zip xs, t.2.length ≤ t.1.length) (hn : xs.flatten.Nodup) :
    ∃ m', m.setObjective coeffs xs const mx = some m' := by
  have hsub : ((List.zipWith (fun c v => c.zip v) coeffs xs).flatten.map Prod.snd).Nodup := by
    refine List.Nodup.sublist ?_ hn
    clear hlen hn
    induction coeffs generalizing xs with
    | nil => simp
    | cons c cs ih => cases xs with
      | nil => simp
      | cons x xs =>
        simp only [List.zipWith_cons_cons, List.flatten_cons, List.map_append]
        refine List.Sublist.append ?_ (ih xs (by simpa using hl))
        clear ih hl
        induction c generalizing x with
        | nil => simp
        | cons a c ih2 => cases x with
          | nil => simp
          | cons b x => simpa using ih2 x
  obtain ⟨t, ht⟩ := objLoop_isSome hw _ [] [] (zeros m.r.length) (zeros m.zeta.length) hsub (by simp)
  refine ⟨{ m with obj := some ⟨t.1, t.2, const, mx⟩ }, ?_⟩
  rw [Mip.setObjective, if_pos ⟨hl, hlen⟩]
  simp [ht]

/-- A variable that occurs twice makes `setObjective` raise. -/
theorem C63_duplicate_raises :
    exTwo.setObjective [[1], [1]] [[0], [0]] 0 true = none ∧
      ∃ m', exTwo.setObjective [[1], [2]] [[1], [0]] 3 true = some m' ∧
        m'.objVal (fun i => if i = 0 then 10 else 100) = 123 := by
  refine ⟨rfl, _, rfl, ?_⟩
  decide +kernel

/-! ### C30 -/

/-- **C30**, the retry loop: it returns `o` iff for the first of the ten tolerances
`tol, 2 tol, 4 tol, ...` at which the recomputed objective agrees with the solver's, `o` is that
recomputed objective; in particular a returned objective agrees with the solver's. -/
theorem C30_retry_returns (f : List ℕ → K) (active : K → List ℕ) (pool objTol tol : K) (n : ℕ) (o : K) :
    retryLoop f active pool objTol n tol = some o ↔
      ∃ k, k < n ∧ o = f (active (tol * 2 ^ k)) ∧ |o - pool| ≤ objTol ∧
        ∀ j, j < k → objTol < |f (active (tol * 2 ^ j)) - pool| := by
  induction n generalizing tol with
  | zero => simp [retryLoop]
  | succ n ih =>
    have e : ∀ j : ℕ, (tol + tol) * 2 ^ j = tol * 2 ^ (j + 1) := fun j => by ring
    rw [retryLoop]
    simp only [gt_iff_lt]
    split_ifs with h
    · rw [ih]
      constructor
      · rintro ⟨k, h1, h2, h3, h4⟩
        refine ⟨k + 1, by omega, by rw [h2, e], h3, ?_⟩
        intro j hj
        cases j with
        | zero => simpa using h
        | succ j => rw [← e]; exact h4 j (by omega)
      · rintro ⟨k, h1, h2, h3, h4⟩
        cases k with
        | zero =>
          simp at h2
          rw [h2] at h3
          exact absurd h (not_lt.2 h3)
        | succ k =>
          exact ⟨k, by omega, by rw [h2, e], h3, fun j hj => by rw [e]; exact h4 (j + 1) (by omega)⟩
    · constructor
      · intro ho
        simp at ho
        exact ⟨0, by omega, by simp [← ho], by rw [← ho]; exact not_lt.1 h, by simp⟩
      · rintro ⟨k, h1, h2, h3, h4⟩
        cases k with
        | zero => simpa using h2.symm
        | succ k => exact absurd (by simpa using h4 0 (by omega)) h

/-- **C30**, the loop raises iff all trials disagree with the solver. -/
theorem C30_retry_raises (f : List ℕ → K) (active : K → List ℕ) (pool objTol tol : K) (n : ℕ) :
    retryLoop f active pool objTol n tol = none ↔
      ∀ k, k < n → objTol < |f (active (tol * 2 ^ k)) - pool| := by
  constructor
  · intro h k hk
    by_contra hc
    have hex : ∃ k, k < n ∧ |f (active (tol * 2 ^ k)) - pool| ≤ objTol := ⟨k, hk, not_lt.1 hc⟩
    classical
    have hsp := Nat.find_spec hex
    have : retryLoop f active pool objTol n tol = some (f (active (tol * 2 ^ Nat.find hex))) := by
      rw [C30_retry_returns]
      refine ⟨_, hsp.1, rfl, hsp.2, fun j hj => ?_⟩
      by_contra hcj
      exact Nat.find_min hex hj ⟨by omega, not_lt.1 hcj⟩
    rw [h] at this
    simp at this
  · intro h
    cases hr : retryLoop f active pool objTol n tol with
    | none => rfl
    | some o =>
      rw [C30_retry_returns] at hr
      obtain ⟨k, hk, h2, h3, _⟩ := hr
      have := h k hk
      rw [← h2] at this
      exact absurd this (not_lt.2 h3)

/-- **C30**, `compute_objective_from_mip_data_and_solution`: a returned objective agrees with the solver's
up to `objective_tol`. -/
theorem C30_agrees (m : Mip K) (o : MilpObj K) (inv : Mat K → Mat K) (r zeta : Vec K)
    (pool tol objTol obj : K) (h : m.objAndSolution o inv r zeta pool tol objTol = some obj) :
    |obj - pool| ≤ objTol := by
  rw [Mip.objAndSolution, C30_retry_returns] at h
  obtain ⟨_, _, _, h, _⟩ := h
  exact h

theorem dot_denseRow (ts : List (Trip K)) (i n : ℕ) (x : Vec K) (_hx : x.length = n)
    (hc : ∀ t ∈ ts, t.col < n) : dot (denseRow ts i n) x = tripRow ts i x := by
  unfold denseRow
  rw [dot_shift]
  induction ts with
  | nil => simp [tripRow]
  | cons t ts ih =>
    have hc' := ih fun u hu => hc u (by simp [hu])
    have hb : (List.map (fun j => (List.map Trip.val (List.filter (fun u => decide (u.row = i ∧ u.col = j))
        (t :: ts))).sum * x.getD j 0) (List.range n)).sum
        = (List.map (fun j => (if j = t.col then 1 else 0) *
            (if t.row = i then t.val * x.getD j 0 else 0)) (List.range n)).sum
          + (List.map (fun j => (List.map Trip.val (List.filter (fun u => decide (u.row = i ∧ u.col = j))
              ts)).sum * x.getD j 0) (List.range n)).sum := by
      rw [← List.sum_map_add]
      congr 1
      apply List.map_congr_left
      intro j _
      by_cases h1 : t.row = i <;> by_cases h2 : t.col = j
      · subst h2; simp [h1]; ring
      · simp [h1, h2, Ne.symm h2]
      · simp [h1]
      · simp [h1]
    rw [hb, hc', sum_ite_range]
    have := hc t (by simp)
    simp only [this, if_true, tripRow]
    by_cases h1 : t.row = i <;> simp [h1]

/-- **C30**, `get_active_constraints`: the rows returned are the equality rows and the chosen inequality
rows with `zeta` substituted: `r` satisfies `A_act r = b_act` iff all of them hold with equality. -/
theorem C30_active_constraints (m : Mip K) (ht : m.TWF) (active : List ℕ) (r zeta : Vec K)
    (hr : r.length = m.r.length) (hz : zeta.length = m.zeta.length) :
    matVec (m.activeConstraints active zeta).1 r = (m.activeConstraints active zeta).2 ↔
      (∀ i, i < m.rhsEq.length → tripRow m.aeqR i r + tripRow m.aeqZ i zeta = m.rhsEq.getD i 0) ∧
      ∀ i ∈ active, tripRow m.ainR i r + tripRow m.ainZ i zeta = m.rhsIn.getD i 0 := by
  have e1 := fun i => dot_denseRow m.aeqR i _ r hr fun t h => (ht.eqR t h).2
  have e2 := fun i => dot_denseRow m.aeqZ i _ zeta hz fun t h => (ht.eqZ t h).2
  have e3 := fun i => dot_denseRow m.ainR i _ r hr fun t h => (ht.inR t h).2
  have e4 := fun i => dot_denseRow m.ainZ i _ zeta hz fun t h => (ht.inZ t h).2
  simp only [Mip.activeConstraints, matVec, List.map_append, List.map_map, Function.comp_def, e1, e2, e3,
    e4]
  constructor
  · intro h
    have h' := List.append_inj h (by simp)
    refine ⟨fun i hi => ?_, fun i hi => ?_⟩
    · have := List.map_inj_left.1 h'.1 i (by simpa using hi)
      linarith
    · have := List.map_inj_left.1 h'.2 i hi
      linarith
  · rintro ⟨h1, h2⟩
    congr 1
    · apply List.map_congr_left
      intro i hi
      linarith [h1 i (by simpa using hi)]
    · apply List.map_congr_left
      intro i hi
      linarith [h2 i hi]

/-- **C30**, exactness. If the active rows determine the continuous variables (`inv` inverts `AᵀA`, i.e.
`A` has full column rank and no penalty is added) and hold with equality at `(r, zeta)`, the recomputed
objective is the objective at `(r, zeta)`. -/
theorem C30_recomputed_objective (m : Mip K) (ht : m.TWF) (o : MilpObj K) (inv : Mat K → Mat K)
    (active : List ℕ) (r zeta : Vec K) (hr : r.length = m.r.length) (hz : zeta.length = m.zeta.length)
    (hinv : ∀ x : Vec K, x.length = m.r.length →
      matVec (inv (m.activeConstraints active zeta).1) (matVec (transp m.r.length
        (m.activeConstraints active zeta).1) (matVec (m.activeConstraints active zeta).1 x)) = x)
    (heq : ∀ i, i < m.rhsEq.length → tripRow m.aeqR i r + tripRow m.aeqZ i zeta = m.rhsEq.getD i 0)
    (hin : ∀ i ∈ active, tripRow m.ainR i r + tripRow m.ainZ i zeta = m.rhsIn.getD i 0) :
    m.objFromData o inv active zeta = dot o.c_r r + dot o.c_zeta zeta + o.const := by
  have h := (C30_active_constraints m ht active r zeta hr hz).2 ⟨heq, hin⟩
  simp only [Mip.objFromData]
  rw [← h, hinv r hr]

/-- **C30**, the whole function: at a solution whose active rows (for the given tolerance) are exactly
tight and determine the continuous variables, `compute_objective_from_mip_data_and_solution` returns the
objective at the solution, when the solver's objective is within `objective_tol` of it. -/
theorem C30_returns_objective (m : Mip K) (ht : m.TWF) (o : MilpObj K) (inv : Mat K → Mat K)
    (r zeta : Vec K) (pool tol objTol : K) (hr : r.length = m.r.length)
    (hz : zeta.length = m.zeta.length)
    (hinv : ∀ x : Vec K, x.length = m.r.length →
      matVec (inv (m.activeConstraints (m.activeSet r zeta tol) zeta).1) (matVec (transp m.r.length
        (m.activeConstraints (m.activeSet r zeta tol) zeta).1)
          (matVec (m.activeConstraints (m.activeSet r zeta tol) zeta).1 x)) = x)
    (heq : ∀ i, i < m.rhsEq.length → tripRow m.aeqR i r + tripRow m.aeqZ i zeta = m.rhsEq.getD i 0)
    (hin : ∀ i, i < m.rhsIn.length → |tripRow m.ainR i r + tripRow m.ainZ i zeta - m.rhsIn.getD i 0| < tol →
      tripRow m.ainR i r + tripRow m.ainZ i zeta = m.rhsIn.getD i 0)
    (hpool : |dot o.c_r r + dot o.c_zeta zeta + o.const - pool| ≤ objTol) :
    m.objAndSolution o inv r zeta pool tol objTol
      = some (dot o.c_r r + dot o.c_zeta zeta + o.const) := by
  rw [Mip.objAndSolution, C30_retry_returns]
  have e3 := fun i => dot_denseRow m.ainR i _ r hr fun t h => (ht.inR t h).2
  have e4 := fun i => dot_denseRow m.ainZ i _ zeta hz fun t h => (ht.inZ t h).2
  refine ⟨0, by norm_num, ?_, hpool, by simp⟩
  simp only [pow_zero, mul_one]
  rw [C30_recomputed_objective m ht o inv _ r zeta hr hz hinv heq]
  intro i hi
  simp only [Mip.activeSet, List.mem_filter, List.mem_range, e3, e4, decide_eq_true_eq] at hi
  exact hin i hi.1 hi.2

/-- The program `max 2 x + 7` with `0 <= x <= 3`. -/
def exMax : Mip ℚ := ((Mip.empty : Mip ℚ).addVars 1 [some 0] [some 3] .continuous).get rfl |>.1

/-- The hypotheses of C30 hold at the optimum `x = 3` of `exMax` with the true inverse of `AᵀA = [[1]]`;
the objective 13 is recomputed, and an objective that is off by one makes the function raise. -/
theorem C30_example :
    exMax.objAndSolution ⟨[2], [], 7, true⟩ (fun _ => [[1]]) [3] [] 13 (1/1000) (1/100) = some 13 ∧
      exMax.objAndSolution ⟨[2], [], 7, true⟩ (fun _ => [[1]]) [3] [] 14 (1/1000) (1/100) = none ∧
      (∀ x : Vec ℚ, x.length = 1 → matVec [[1]] (matVec (transp 1
        (exMax.activeConstraints (exMax.activeSet [3] [] (1/1000)) []).1)
          (matVec (exMax.activeConstraints (exMax.activeSet [3] [] (1/1000)) []).1 x)) = x) := by
  refine ⟨by decide +kernel, by decide +kernel, ?_⟩
  have e : (exMax.activeConstraints (exMax.activeSet [3] [] (1/1000)) []).1 = [[1]] := by decide +kernel
  rw [e]
  intro x hx
  match x, hx with
  | [a], _ => simp [matVec, transp]

end NNL.Props
