import Verif.Model.Strengthen

/-!
# Building a program with relaxed binaries and removing the relaxation

Every call on a program commutes with `remove_binary_relaxation`: calling it with `BINARYRELAX` and making the
variables binary afterwards gives the program of the call with `BINARY`.
-/

set_option linter.unusedSectionVars false

namespace NNL.Model

open NNL NNL.Spec

variable {K : Type*} [Field K] [LinearOrder K]

/-- The entries of `zeta` are variables of the program. -/
def ZLt (m : Mip K) : Prop := ∀ i ∈ m.zeta, i < m.vars.length

/-- Types with a program in them. -/
class Rlx (α : Type*) where
  rr : α → α
  ok : α → Prop

instance : Rlx (Mip K) := ⟨Mip.removeRelaxation, ZLt⟩
instance {α β : Type*} [Rlx α] : Rlx (α × β) := ⟨fun t => (Rlx.rr t.1, t.2), fun t => Rlx.ok t.1⟩
instance : Rlx (ReluOut K) := ⟨fun t => { t with m := t.m.removeRelaxation }, fun t => ZLt t.m⟩
instance : Rlx (DerivRet K) := ⟨fun t => { t with m := t.m.removeRelaxation }, fun t => ZLt t.m⟩

/-- `Q` is the result of `P` with the relaxation removed. -/
def Com {α : Type*} [Rlx α] (P Q : Option α) : Prop := Q = P.map Rlx.rr ∧ ∀ t, P = some t → Rlx.ok t

theorem Com.bind {α β : Type*} [Rlx α] [Rlx β] {P Q : Option α} (h : Com P Q) {F G : α → Option β}
    (hF : ∀ t, Rlx.ok t → Com (F t) (G (Rlx.rr t))) : Com (P.bind F) (Q.bind G) := by
  obtain ⟨rfl, h2⟩ := h
  cases P with
  | none => exact ⟨rfl, fun t ht => (nomatch ht)⟩
  | some t => exact hF t (h2 t rfl)

theorem Com.opt {α β : Type*} [Rlx β] (o : Option α) {F G : α → Option β} (hF : ∀ b, o = some b → Com (F b) (G b)) :
    Com (o.bind F) (o.bind G) := by
  cases o with
  | none => exact ⟨rfl, fun t ht => (nomatch ht)⟩
  | some b => exact hF b rfl

theorem Com.some {α : Type*} [Rlx α] {a b : α} (h : Rlx.ok a) (e : b = Rlx.rr a) : Com (some a) (some b) :=
  ⟨by rw [e]; rfl, fun t ht => by cases ht; exact h⟩

theorem Com.none {α : Type*} [Rlx α] : Com (none : Option α) Option.none := ⟨rfl, fun t ht => (nomatch ht)⟩

theorem Com.ite {α : Type*} [Rlx α] {p : Prop} [Decidable p] {P Q P' Q' : Option α} (h1 : p → Com P Q)
    (h2 : ¬ p → Com P' Q') : Com (if p then P else P') (if p then Q else Q') := by
  split_ifs with h
  · exact h1 h
  · exact h2 h

theorem Com.map {α β : Type*} [Rlx α] [Rlx β] {P Q : Option α} (h : Com P Q) {f g : α → β}
    (hf : ∀ t, Rlx.ok t → Rlx.ok (f t) ∧ g (Rlx.rr t) = Rlx.rr (f t)) : Com (P.map f) (Q.map g) := by
  rw [Option.map_eq_bind, Option.map_eq_bind]
  exact h.bind fun t ht => Com.some (hf t ht).1 (hf t ht).2

/-! ### The calls on a program -/

theorem rr_get (m : Mip K) (i : ℕ) : m.removeRelaxation.vars[i]? =
    m.vars[i]?.map fun g => if i ∈ m.zeta then { g with isBin := true } else g := by
  simp only [Mip.removeRelaxation, List.getElem?_map, List.getElem?_zipIdx, Option.map_map]
  congr 1
  funext g
  simp

theorem rr_len (m : Mip K) : m.removeRelaxation.vars.length = m.vars.length := by simp [Mip.removeRelaxation]

theorem com_addMConstr (m : Mip K) (hz : ZLt m) (A : List (Tensor2 K)) (x : List (List ℕ)) (s : Sense) (b : Vec K) :
    Com (m.addMConstr A x s b) (m.removeRelaxation.addMConstr A x s b) := by
  unfold Mip.addMConstr
  rw [rr_len]
  refine Com.ite (fun _ => ?_) fun _ => Com.none
  cases s <;> exact Com.some hz rfl

theorem com_addLConstr (m : Mip K) (hz : ZLt m) (c : List (Vec K)) (x : List (List ℕ)) (s : Sense) (b : K) :
    Com (m.addLConstr c x s b) (m.removeRelaxation.addLConstr c x s b) := by
  unfold Mip.addLConstr
  refine Com.ite (fun _ => ?_) fun _ => Com.none
  simp only [show m.removeRelaxation.rIdx = m.rIdx from rfl, show m.removeRelaxation.zIdx = m.zIdx from rfl]
  cases lconstrLoop m.rIdx m.zIdx (c.flatten.zip x.flatten) [] [] with
  | none => exact Com.none
  | some t => cases s <;> exact Com.some hz rfl

theorem com_setObjective (m : Mip K) (hz : ZLt m) (c : List (Vec K)) (x : List (List ℕ)) (k : K) (b : Bool) :
    Com (m.setObjective c x k b) (m.removeRelaxation.setObjective c x k b) := by
  unfold Mip.setObjective
  refine Com.ite (fun _ => ?_) fun _ => Com.none
  simp only [show m.removeRelaxation.rIdx = m.rIdx from rfl, show m.removeRelaxation.zIdx = m.zIdx from rfl,
    show m.removeRelaxation.r = m.r from rfl, show m.removeRelaxation.zeta = m.zeta from rfl]
  cases objLoop m.rIdx m.zIdx (List.zipWith (fun c v => c.zip v) c x).flatten [] [] (zeros m.r.length)
    (zeros m.zeta.length) with
  | none => exact Com.none
  | some t => exact Com.some hz rfl

/-- Binaries of a list of variables. -/
def binAll (zeta : List ℕ) (vars : List (GVar K)) : List (GVar K) :=
  vars.zipIdx.map fun t => if t.2 ∈ zeta then { t.1 with isBin := true } else t.1

theorem binAll_get (zeta : List ℕ) (vars : List (GVar K)) (i : ℕ) : (binAll zeta vars)[i]? =
    vars[i]?.map fun g => if i ∈ zeta then { g with isBin := true } else g := by
  simp only [binAll, List.getElem?_map, List.getElem?_zipIdx, Option.map_map]
  congr 1
  funext g
  simp

theorem binAll_modify (zeta : List ℕ) (vars : List (GVar K)) (i : ℕ) (f : GVar K → GVar K)
    (hf : ∀ g b, f { g with isBin := b } = { f g with isBin := b }) :
    (binAll zeta vars).modify i f = binAll zeta (vars.modify i f) := by
  apply List.ext_getElem?
  intro j
  rw [List.getElem?_modify, binAll_get, binAll_get, List.getElem?_modify]
  cases vars[j]? with
  | none => rfl
  | some g =>
    simp only [Option.map_some, Option.map_eq_map]
    by_cases h1 : i = j <;> by_cases h2 : j ∈ zeta <;> simp [h1, h2, hf g true]

theorem binAll_raiseLb (zeta : List ℕ) : ∀ (ids : List ℕ) (ls : List (Option K)) (vars : List (GVar K)),
    raiseLb (binAll zeta vars) ids ls = binAll zeta (raiseLb vars ids ls)
  | [], _, vars => by simp [raiseLb]
  | _ :: _, [], vars => by simp [raiseLb]
  | i :: is, l :: ls, vars => by
    rw [raiseLb, raiseLb, binAll_modify _ _ _ _ (fun _ _ => rfl), binAll_raiseLb zeta is ls]

theorem binAll_reduceUb (zeta : List ℕ) : ∀ (ids : List ℕ) (ls : List (Option K)) (vars : List (GVar K)),
    reduceUb (binAll zeta vars) ids ls = binAll zeta (reduceUb vars ids ls)
  | [], _, vars => by simp [reduceUb]
  | _ :: _, [], vars => by simp [reduceUb]
  | i :: is, l :: ls, vars => by
    rw [reduceUb, reduceUb, binAll_modify _ _ _ _ (fun _ _ => rfl), binAll_reduceUb zeta is ls]

theorem length_raiseLb' : ∀ (ids : List ℕ) (ls : List (Option K)) (vars : List (GVar K)),
    (raiseLb vars ids ls).length = vars.length
  | [], _, vars => by simp [raiseLb]
  | _ :: _, [], vars => by simp [raiseLb]
  | i :: is, l :: ls, vars => by rw [raiseLb, length_raiseLb' is ls]; simp

theorem length_reduceUb' : ∀ (ids : List ℕ) (ls : List (Option K)) (vars : List (GVar K)),
    (reduceUb vars ids ls).length = vars.length
  | [], _, vars => by simp [reduceUb]
  | _ :: _, [], vars => by simp [reduceUb]
  | i :: is, l :: ls, vars => by rw [reduceUb, length_reduceUb' is ls]; simp

theorem com_setVarBound (m : Mip K) (hz : ZLt m) (ids : List ℕ) (lo up : Option (List (Option K))) :
    Com (m.setVarBound ids lo up) (m.removeRelaxation.setVarBound ids lo up) := by
  unfold Mip.setVarBound
  refine Com.ite (fun _ => Com.some ?_ ?_) fun _ => Com.none
  · intro i hi
    simp only [length_raiseLb', length_reduceUb']
    exact hz i hi
  · have e : m.removeRelaxation.vars = binAll m.zeta m.vars := rfl
    rw [e, binAll_raiseLb, binAll_reduceUb]
    rfl

theorem binAll_append (zeta : List ℕ) (a b : List (GVar K)) :
    binAll zeta (a ++ b) = binAll zeta a ++ (b.zipIdx a.length).map fun t =>
      if t.2 ∈ zeta then { t.1 with isBin := true } else t.1 := by
  simp [binAll, List.zipIdx_append]

/-- New continuous variables. -/
theorem com_addVars (m : Mip K) (hz : ZLt m) (num : ℕ) (lb ub : List (Option K)) :
    Com (m.addVars num lb ub .continuous) (m.removeRelaxation.addVars num lb ub .continuous) := by
  unfold Mip.addVars
  rw [rr_len]
  refine Com.ite (fun _ => Com.some ?_ ?_) fun _ => Com.none
  · intro i hi
    have := hz i hi
    simp only [List.length_append]
    omega
  · simp only [Rlx.rr, Mip.removeRelaxation, Prod.mk.injEq, and_true]
    congr 1
    rw [List.zipIdx_append, List.map_append]
    congr 1
    symm
    have : ∀ (l : List (GVar K)), (l.zipIdx (0 + m.vars.length)).map (fun t =>
        if t.2 ∈ m.zeta then { t.1 with isBin := true } else t.1) = l := by
      intro l
      apply List.ext_getElem?
      intro j
      simp only [List.getElem?_map, List.getElem?_zipIdx, Option.map_map]
      cases l[j]? with
      | none => rfl
      | some g =>
        simp only [Option.map_some, Function.comp_apply, Option.some.injEq]
        rw [if_neg]
        intro hc
        have := hz _ hc
        omega
    exact this _

/-- New binaries. -/
theorem com_addBins [IsStrictOrderedRing K] (m : Mip K) (hz : ZLt m) (num : ℕ) :
    Com (m.addVars num (scalarBound num 0) (scalarBound num 1) .relax)
      (m.removeRelaxation.addVars num (scalarBound num 0) (scalarBound num 1) .binary) := by
  unfold Mip.addVars
  rw [rr_len]
  refine Com.ite (fun _ => Com.some ?_ ?_) fun _ => Com.none
  · intro i hi
    simp only [List.length_append, List.length_zipWith, scalarBound, List.length_replicate, min_self,
      List.mem_append, List.mem_range'_1] at hi ⊢
    rcases hi with hi | hi
    · have := hz i hi
      omega
    · omega
  · simp only [Rlx.rr, Mip.removeRelaxation, Prod.mk.injEq, and_true]
    congr 1
    apply List.ext_getElem?
    intro j
    simp only [List.getElem?_map, List.getElem?_zipIdx, List.getElem?_append, List.length_map, List.length_zipIdx,
      Option.map_map]
    by_cases h : j < m.vars.length
    · simp only [h, if_true]
      cases m.vars[j]? with
      | none => rfl
      | some g =>
        simp only [Option.map_some, Function.comp_apply, zero_add, List.mem_append, List.mem_range'_1]
        have : ¬ (m.vars.length ≤ j ∧ j < m.vars.length + num) := by omega
        simp [this]
    · simp only [h, if_false, scalarBound, List.getElem?_zipWith, List.getElem?_replicate]
      by_cases h2 : j - m.vars.length < num
      · simp only [h2, if_true, Option.map_some, Function.comp_apply, zero_add, List.mem_append, List.mem_range'_1]
        have : m.vars.length ≤ j ∧ j < m.vars.length + num := by omega
        simp [this, newGVar, maxLo, minUp]
      · simp [h2]

/-! ### Mixed-integer constraints -/

theorem com_addBlock (m : Mip K) (hz : ZLt m) (Ax As Az : Option (Tensor2 K)) (rhs : Option (Vec K)) (sense : Sense)
    (x s z : List ℕ) : Com (m.addBlock Ax As Az rhs sense x s z) (m.removeRelaxation.addBlock Ax As Az rhs sense x s z) := by
  unfold Mip.addBlock
  cases rhs with
  | none => exact Com.some hz rfl
  | some b => exact Com.ite (fun _ => com_addMConstr m hz _ _ _ _) fun _ => Com.some hz rfl

theorem com_addOut (m : Mip K) (hz : ZLt m) (c : MIC K) (out : Option (List ℕ)) (x s z : List ℕ) :
    Com (m.addOut c out x s z) (m.removeRelaxation.addOut c out x s z) := by
  unfold Mip.addOut
  cases out with
  | none => exact Com.some hz rfl
  | some o => exact com_addMConstr m hz _ _ _ _

theorem com_addSlack (m : Mip K) (hz : ZLt m) (c : MIC K) : Com (m.addSlack c) (m.removeRelaxation.addSlack c) := by
  unfold Mip.addSlack
  refine Com.ite (fun _ => ?_) fun _ => Com.some hz rfl
  exact (com_addVars m hz _ _ _).bind fun t ht => (com_setVarBound t.1 ht _ _ _).bind fun m' hm' => Com.some hm' rfl

variable [IsStrictOrderedRing K]

theorem com_addBin (m : Mip K) (hz : ZLt m) (c : MIC K) :
    Com (m.addBin c .fresh .relax) (m.removeRelaxation.addBin c .fresh .binary) := by
  unfold Mip.addBin
  refine Com.ite (fun _ => ?_) fun _ => Com.some hz rfl
  exact (com_addBins m hz _).bind fun t ht => (com_setVarBound t.1 ht _ _ _).bind fun m' hm' => Com.some hm' rfl

theorem com_addMIC (m : Mip K) (hz : ZLt m) (c : MIC K) (x : List ℕ) (o : Option (List ℕ)) :
    Com (m.addMIC c x o .fresh .relax) (m.removeRelaxation.addMIC c x o .fresh .binary) := by
  unfold Mip.addMIC
  refine (com_setVarBound m hz _ _ _).bind fun m1 h1 => ?_
  refine (com_addSlack m1 h1 c).bind fun ts hs => ?_
  refine (com_addBin ts.1 hs c).bind fun tz hz => ?_
  refine (com_addBlock tz.1 hz _ _ _ _ _ _ _ _).bind fun m2 h2 => ?_
  refine (com_addBlock m2 h2 _ _ _ _ _ _ _ _).bind fun m3 h3 => ?_
  exact (com_addOut m3 h3 _ _ _ _ _).bind fun m4 h4 => Com.some h4 rfl

/-! ### The derivative program -/

theorem com_addRelu (L : Lyap K) (m : Mip K) (hz : ZLt m) (x : List ℕ) :
    Com (L.addRelu m x .relax) (L.addRelu m.removeRelaxation x .binary) := by
  unfold Lyap.addRelu
  refine Com.opt _ fun r _ => (com_addMIC m hz _ _ _).bind fun t ht => ?_
  exact Com.opt _ fun a _ => Com.opt _ fun b _ => Com.some ht rfl

theorem com_l1Loop (n : ℕ) (xe : Vec K) (x : List ℕ) (flag : Bool) : ∀ (R : Mat K) (lb ub : Vec K) (m : Mip K), ZLt m →
    Com (l1Loop n xe x flag .relax R lb ub m) (l1Loop n xe x flag .binary R lb ub m.removeRelaxation)
  | r :: R, l :: lb, u :: ub, m, hz => by
    unfold l1Loop
    refine Com.opt _ fun c _ => Com.opt _ fun c _ => (com_addMIC m hz _ _ _).bind fun t ht => ?_
    refine (com_l1Loop n xe x flag R lb ub t.1 ht).bind fun q hq => ?_
    exact Com.ite (fun _ => Com.some hq rfl) fun _ => Com.none
  | [], _, _, m, hz => by simp only [l1Loop]; exact Com.some hz rfl
  | _ :: _, [], _, m, hz => by simp only [l1Loop]; exact Com.some hz rfl
  | _ :: _, _ :: _, [], m, hz => by simp only [l1Loop]; exact Com.some hz rfl

theorem com_addL1 (L : Lyap K) (m : Mip K) (hz : ZLt m) (xe : Vec K) (x : List ℕ) (R : Option (Tensor2 K)) (flag : Bool) :
    Com (L.addL1 m xe x R flag .relax) (L.addL1 m.removeRelaxation xe x R flag .binary) := by
  unfold Lyap.addL1
  refine Com.ite (fun _ => Com.opt _ fun R _ => Com.ite (fun _ => Com.opt _ fun b _ => ?_) fun _ => Com.none) fun _ => Com.none
  exact com_l1Loop _ _ _ _ _ _ _ _ hz

theorem com_addVBounds (m : Mip K) (hz : ZLt m) (lower upper : Option K) (a : Vec K) (b lam : K) (z : List ℕ) (phiE : K)
    (s : List ℕ) : Com (m.addVBounds lower upper a b lam z phiE s)
      (m.removeRelaxation.addVBounds lower upper a b lam z phiE s) := by
  unfold Mip.addVBounds
  refine Com.bind (P := m.addVLower lower a b lam z phiE s) ?_ fun m1 h1 => ?_
  · unfold Mip.addVLower
    cases lower with
    | none => exact Com.some hz rfl
    | some l => exact com_addLConstr m hz _ _ _ _
  · unfold Mip.addVUpper
    cases upper with
    | none => exact Com.some h1 rfl
    | some l => exact com_addLConstr m1 h1 _ _ _ _

/-- The system constraint with relaxed binaries, after removing the relaxation, is the one with binaries. -/
def SysCom (sys : VType → SysNets K) : Prop :=
  ∀ (m : Mip K) (x xn : List ℕ), ZLt m → Com (sys .relax m x xn) (sys .binary m.removeRelaxation x xn)

theorem com_derivativeNets (L : Lyap K) {sys : VType → SysNets K} (hs : SysCom sys) (xe : Vec K) (lam eps : K)
    (et : EpsType) (R : Option (Tensor2 K)) (lower upper : Option K) :
    Com (L.derivativeNets (sys .relax) xe lam eps et R lower upper .relax)
      (L.derivativeNets (sys .binary) xe lam eps et R lower upper .binary) := by
  unfold Lyap.derivativeNets
  refine Com.ite (fun _ => Com.opt _ fun R' _ => ?_) fun _ => Com.none
  have h0 : ZLt (Mip.empty : Mip K) := fun i hi => by simp [Mip.empty] at hi
  refine (com_addVars Mip.empty h0 _ _ _).bind fun tn hn => ?_
  refine (com_addVars tn.1 hn _ _ _).bind fun tx hx => ?_
  refine (hs tx.1 tx.2 tn.2 hx).bind fun d hd => ?_
  refine (com_addRelu L d.1 hd tx.2).bind fun t ht => ?_
  refine (com_addL1 L t.m ht _ _ _ _).bind fun q hq => ?_
  refine (com_addL1 L q.1 hq _ _ _ _).bind fun qn hqn => ?_
  refine (com_addVBounds qn.1 hqn _ _ _ _ _ _ _ _).bind fun m hm => ?_
  refine (com_addRelu L m hm tn.2).bind fun u hu => ?_
  exact (com_setObjective u.m hu _ _ _ _).bind fun m' hm' => Com.some hm' rfl

/-! ### Systems -/

theorem com_plain {sys : VType → SysConstr K} (h : ∀ (m : Mip K) (x xn : List ℕ), ZLt m →
    Com (sys .relax m x xn) (sys .binary m.removeRelaxation x xn)) : SysCom fun bt => plainSys (sys bt) := by
  intro m x xn hz
  unfold plainSys
  exact (h m x xn hz).map fun t ht => ⟨ht, rfl⟩

theorem com_addAuto (c : Option (ReluMIC K)) (m : Mip K) (x xn : List ℕ) (hz : ZLt m) :
    Com (addAuto c .relax m x xn) (addAuto c .binary m.removeRelaxation x xn) := by
  unfold addAuto
  exact Com.opt _ fun r _ => com_addMIC m hz _ _ _

theorem com_autoHybrid (S : AutoHybrid K) (m : Mip K) (x xn : List ℕ) (hz : ZLt m) :
    Com (S.addDynamics .relax m x xn) (S.addDynamics .binary m.removeRelaxation x xn) := by
  unfold AutoHybrid.addDynamics
  exact Com.opt _ fun r _ => com_addMIC m hz _ _ _

/-- The same for a system with input. -/
def CtrlCom (fwd : VType → CtrlConstr K) : Prop :=
  ∀ (m : Mip K) (x xn u : List ℕ) (aLo aUp : Option (Vec K)), ZLt m →
    Com (fwd .relax m x xn u aLo aUp) (fwd .binary m.removeRelaxation x xn u aLo aUp)

theorem com_addCtrl (uLo uUp : Vec K) (c : Option (Vec K) → Option (Vec K) → Option (ReluMIC K)) :
    CtrlCom fun bt => addCtrl uLo uUp c bt := by
  intro m x xn u aLo aUp hz
  unfold addCtrl
  exact Com.opt _ fun _ _ => Com.opt _ fun _ _ => Com.opt _ fun r _ => com_addMIC m hz _ _ _

theorem com_addResidue (S : SecondRelu K) : CtrlCom fun bt => S.addResidue bt := by
  intro m x xn u aLo aUp hz
  unfold SecondRelu.addResidue
  refine Com.ite (fun _ => ?_) fun _ => Com.none
  refine Com.opt _ fun _ _ => Com.opt _ fun _ _ => Com.opt _ fun _ _ => Com.opt _ fun _ _ => Com.opt _ fun r _ => ?_
  refine (com_addMIC m hz _ _ _).bind fun t ht => ?_
  refine Com.opt _ fun _ _ => Com.opt _ fun _ _ => Com.opt _ fun _ _ => ?_
  refine (com_addMConstr t.1 ht _ _ _ _).bind fun m1 h1 => ?_
  exact (com_addMConstr m1 h1 _ _ _ _).bind fun m2 h2 => Com.some h2 rfl

theorem com_asForward (S : Hybrid K) : CtrlCom fun bt => S.asForward bt := by
  intro m x xn u aLo aUp hz
  unfold Hybrid.asForward Hybrid.addDynamics
  exact Com.opt _ fun r _ => com_addMIC m hz _ _ _

theorem com_addSaturation (m : Mip K) (hz : ZLt m) (x y : ℕ) (lower upper lo up : K) :
    Com (m.addSaturation x y lower upper lo up .relax) (m.removeRelaxation.addSaturation x y lower upper lo up .binary) := by
  unfold Mip.addSaturation Mip.addLowerRows Mip.addUpperRows
  refine Com.ite (fun _ => ?_) fun _ => Com.ite (fun _ => ?_) fun _ => Com.ite (fun _ => ?_) fun _ =>
    Com.ite (fun _ => ?_) fun _ => Com.ite (fun _ => ?_) fun _ => ?_
  · exact (com_addLConstr m hz _ _ _ _).bind fun m1 h1 => Com.some h1 rfl
  · exact (com_addLConstr m hz _ _ _ _).bind fun m1 h1 => Com.some h1 rfl
  · exact (com_addLConstr m hz _ _ _ _).bind fun m1 h1 => Com.some h1 rfl
  · refine Com.opt _ fun R _ => (com_addBins m hz 1).bind fun t ht => ?_
    exact (com_addMConstr t.1 ht _ _ _ _).bind fun m1 h1 => Com.some h1 rfl
  · refine Com.opt _ fun R _ => (com_addBins m hz 1).bind fun t ht => ?_
    exact (com_addMConstr t.1 ht _ _ _ _).bind fun m1 h1 => Com.some h1 rfl
  · refine (com_addVars m hz _ _ _).bind fun tz hz => (com_addBins tz.1 hz 2).bind fun t ht => ?_
    refine (com_addLConstr t.1 ht _ _ _ _).bind fun m1 h1 => Com.opt _ fun R1 _ => ?_
    refine (com_addMConstr m1 h1 _ _ _ _).bind fun m2 h2 => Com.opt _ fun R2 _ => ?_
    exact (com_addMConstr m2 h2 _ _ _ _).bind fun m3 h3 => Com.some h3 rfl

theorem com_satTurn (u pre : ℕ) (lower upper : Ext K) (a b : K) (m : Mip K) (hz : ZLt m) :
    Com (satTurn u pre lower upper a b m .relax) (satTurn u pre lower upper a b m.removeRelaxation .binary) := by
  unfold satTurn
  refine Com.ite (fun _ => com_addLConstr m hz _ _ _ _) fun _ => ?_
  cases lower.toFin with
  | none => exact Com.none
  | some l =>
    cases upper.toFin with
    | none => exact Com.none
    | some h => exact (com_addSaturation m hz _ _ _ _ _ _).map fun t ht => ⟨ht, rfl⟩

theorem com_satLoop : ∀ (u pre : List ℕ) (lower upper : List (Ext K)) (a b : Vec K) (m : Mip K), ZLt m →
    Com (satLoop .relax u pre lower upper a b m) (satLoop .binary u pre lower upper a b m.removeRelaxation)
  | [], _, _, _, _, _, m, hz => by simp only [satLoop]; exact Com.some hz rfl
  | u :: us, pre :: pres, l :: ls, h :: hs, a :: as, b :: bs, m, hz => by
    unfold satLoop
    exact (com_satTurn _ _ _ _ _ _ m hz).bind fun m1 h1 => com_satLoop _ _ _ _ _ _ m1 h1
  | _ :: _, [], _, _, _, _, _, _ => by simp only [satLoop]; exact Com.none
  | _ :: _, _ :: _, [], _, _, _, _, _ => by simp only [satLoop]; exact Com.none
  | _ :: _, _ :: _, _ :: _, [], _, _, _, _ => by simp only [satLoop]; exact Com.none
  | _ :: _, _ :: _, _ :: _, _ :: _, [], _, _, _ => by simp only [satLoop]; exact Com.none
  | _ :: _, _ :: _, _ :: _, _ :: _, _ :: _, [], _, _ => by simp only [satLoop]; exact Com.none

theorem com_addInputSat (m : Mip K) (hz : ZLt m) (u pre : List ℕ) (lower upper : List (Ext K)) (a b : Vec K) :
    Com (addInputSat m u pre lower upper a b .relax) (addInputSat m.removeRelaxation u pre lower upper a b .binary) := by
  unfold addInputSat
  refine Com.ite (fun _ => ?_) fun _ => Com.none
  refine (com_satLoop _ _ _ _ _ _ m hz).bind fun m1 h1 => Com.opt _ fun lo _ => Com.opt _ fun up _ => ?_
  exact Com.ite (fun _ => Com.some h1 rfl) fun _ => Com.none

theorem com_fbCtrl (S : Feedback K) (m : Mip K) (hz : ZLt m) (x u : List ℕ) :
    Com (S.addCtrl m x u .relax) (S.addCtrl m.removeRelaxation x u .binary) := by
  unfold Feedback.addCtrl
  cases S.ctrl with
  | net N method =>
    simp only
    unfold Feedback.addNetCtrl Feedback.addNetCtrlGiven
    refine Com.opt _ fun r _ => (com_addMIC m hz _ _ _).bind fun t ht => (com_addVars t.1 ht _ _ _).bind fun p hp => ?_
    refine Com.opt _ fun A _ => Com.opt _ fun C _ => (com_addMConstr p.1 hp _ _ _ _).bind fun m1 h1 => ?_
    exact (com_addInputSat m1 h1 _ _ _ _ _ _).bind fun b hb => Com.some hb rfl
  | lin l =>
    simp only
    unfold Feedback.addLinCtrl
    refine (com_addVars m hz _ _ _).bind fun p hp => (com_addMConstr p.1 hp _ _ _ _).bind fun m1 h1 => ?_
    exact Com.opt _ fun o _ => (com_addInputSat m1 h1 _ _ _ _ _ _).bind fun b hb => Com.some hb rfl

theorem com_feedback (S : Feedback K) {fwd : VType → CtrlConstr K} (hf : CtrlCom fwd) (nets : FwdNets K) :
    SysCom fun bt => S.addDynamicsNets fwd nets bt := by
  intro m x xn hz
  unfold Feedback.addDynamicsNets
  refine (com_addVars m hz _ _ _).bind fun u hu => (com_fbCtrl S u.1 hu x u.2).bind fun c hc => ?_
  refine (hf c.1 x xn u.2 _ _ hc).bind fun f hf' => Com.opt _ fun a _ => Com.opt _ fun b _ => ?_
  exact Com.some hf' rfl

end NNL.Model
