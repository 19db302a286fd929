import Verif.Model.Feedback
import Verif.Lemmas.MipStep

/-!
# Building a program with continuous variables in place of binaries

Every call that succeeds with binaries also succeeds with continuous variables, with the same variables, and every
feasible assignment stays feasible.
-/

set_option linter.unusedSectionVars false

namespace NNL.Model

open NNL NNL.Spec

variable {K : Type*} [Field K] [LinearOrder K] [IsStrictOrderedRing K]

/-- `b` has the variables of `a` and admits every assignment that `a` admits. -/
structure Loose (a b : Mip K) : Prop where
  wfa : a.WF
  wfb : b.WF
  n : a.n = b.n
  feas : ∀ v, a.Feas v → b.Feas v

theorem Loose.refl {m : Mip K} (h : m.WF) : Loose m m := ⟨h, h, rfl, fun _ h => h⟩

/-- The second call succeeds when the first does, with a looser program. -/
def LooseM (P Q : Option (Mip K)) : Prop := ∀ a, P = some a → ∃ b, Q = some b ∧ Loose a b

/-- As `LooseM`, for calls that also return the same further values. -/
def LooseP {β : Type*} (P Q : Option (Mip K × β)) : Prop :=
  ∀ a r, P = some (a, r) → ∃ b, Q = some (b, r) ∧ Loose a b

theorem LooseM.bindP {β : Type*} {P Q : Option (Mip K)} (h : LooseM P Q) {F G : Mip K → Option (Mip K × β)}
    (hF : ∀ a b, Loose a b → LooseP (F a) (G b)) : LooseP (P.bind F) (Q.bind G) := by
  intro a r hr
  obtain ⟨a1, h1, h2⟩ := Option.bind_eq_some_iff.1 hr
  obtain ⟨b1, h3, h4⟩ := h a1 h1
  obtain ⟨b, h5, h6⟩ := hF a1 b1 h4 a r h2
  exact ⟨b, by rw [h3]; exact h5, h6⟩

theorem LooseM.bindM {P Q : Option (Mip K)} (h : LooseM P Q) {F G : Mip K → Option (Mip K)}
    (hF : ∀ a b, Loose a b → LooseM (F a) (G b)) : LooseM (P.bind F) (Q.bind G) := by
  intro a hr
  obtain ⟨a1, h1, h2⟩ := Option.bind_eq_some_iff.1 hr
  obtain ⟨b1, h3, h4⟩ := h a1 h1
  obtain ⟨b, h5, h6⟩ := hF a1 b1 h4 a h2
  exact ⟨b, by rw [h3]; exact h5, h6⟩

theorem LooseP.bindP {α β : Type*} {P Q : Option (Mip K × α)} (h : LooseP P Q) {F G : Mip K × α → Option (Mip K × β)}
    (hF : ∀ a b r, P = some (a, r) → Loose a b → LooseP (F (a, r)) (G (b, r))) : LooseP (P.bind F) (Q.bind G) := by
  intro a r hr
  obtain ⟨⟨a1, r1⟩, h1, h2⟩ := Option.bind_eq_some_iff.1 hr
  obtain ⟨b1, h3, h4⟩ := h a1 r1 h1
  obtain ⟨b, h5, h6⟩ := hF a1 b1 r1 h1 h4 a r h2
  exact ⟨b, by rw [h3]; exact h5, h6⟩

theorem LooseP.opt {α β : Type*} (o : Option α) {F G : α → Option (Mip K × β)} (hF : ∀ t, LooseP (F t) (G t)) :
    LooseP (o.bind F) (o.bind G) := by
  cases o with
  | none => intro a r h; simp at h
  | some t => exact hF t

theorem LooseP.some {β : Type*} {a b : Mip K} (h : Loose a b) (r : β) : LooseP (some (a, r)) (some (b, r)) := by
  intro a' r' h'
  cases h'
  exact ⟨b, rfl, h⟩

theorem LooseM.some {a b : Mip K} (h : Loose a b) : LooseM (some a) (some b) := by
  intro a' h'
  cases h'
  exact ⟨b, rfl, h⟩

theorem LooseP.none {β : Type*} (Q : Option (Mip K × β)) : LooseP none Q := by
  intro a r h
  simp at h

theorem LooseM.none (Q : Option (Mip K)) : LooseM none Q := by
  intro a h
  simp at h

theorem LooseP.ite {β : Type*} {p : Prop} [Decidable p] {P Q P' Q' : Option (Mip K × β)} (h1 : LooseP P Q)
    (h2 : LooseP P' Q') : LooseP (if p then P else P') (if p then Q else Q') := by
  split_ifs
  · exact h1
  · exact h2

theorem LooseP.mapFst {α : Type*} {P Q : Option (Mip K × α)} (h : LooseP P Q) :
    LooseM (P.map Prod.fst) (Q.map Prod.fst) := by
  intro a ha
  obtain ⟨⟨a1, r1⟩, h1, rfl⟩ := Option.map_eq_some_iff.1 ha
  obtain ⟨b, h2, h3⟩ := h a1 r1 h1
  exact ⟨b, by rw [h2]; rfl, h3⟩

/-! ### The calls on a program -/

theorem loose_addMConstr {a b : Mip K} (h : Loose a b) (A : List (Tensor2 K)) (x : List (List ℕ)) (s : Sense)
    (c : Vec K) : LooseM (a.addMConstr A x s c) (b.addMConstr A x s c) := by
  intro a' ha
  obtain ⟨b', hb⟩ : ∃ b', b.addMConstr A x s c = some b' := by
    have : (a.addMConstr A x s c).isSome := by rw [ha]; rfl
    unfold Mip.addMConstr at this
    split_ifs at this with hc
    · obtain ⟨c1, c2, c3, c4, c5⟩ := hc
      exact addMConstr_isSome b c1 c2 c3 c4 (by rw [← h.n]; exact c5)
    · simp at this
  refine ⟨b', hb, addMConstr_wf ha h.wfa, addMConstr_wf hb h.wfb, by rw [addMConstr_n ha, addMConstr_n hb, h.n],
    fun v hv => ?_⟩
  obtain ⟨h1, h2⟩ := (addMConstr_feas ha v).1 hv
  exact (addMConstr_feas hb v).2 ⟨h.feas v h1, h2⟩

theorem lconstrLoop_nodup {rIdx zIdx : List (ℕ × ℕ)} {l : List (K × ℕ)} {ur uz : List ℕ}
    {t : List (ℕ × K) × List (ℕ × K)} (h : lconstrLoop rIdx zIdx l ur uz = some t) :
    (l.map Prod.snd).Nodup ∧ ∀ p ∈ l, (∀ j, rIdx.lookup p.2 = some j → j ∉ ur) ∧
      (rIdx.lookup p.2 = none → ∀ j, zIdx.lookup p.2 = some j → j ∉ uz) := by
  induction l generalizing ur uz t with
  | nil => simp
  | cons p l ih =>
    obtain ⟨c, v⟩ := p
    unfold lconstrLoop at h
    cases hr : rIdx.lookup v with
    | some j =>
      simp only [hr] at h
      split_ifs at h with hj
      obtain ⟨t', h', -⟩ := Option.map_eq_some_iff.1 h
      obtain ⟨i1, i2⟩ := ih h'
      refine ⟨List.nodup_cons.2 ⟨fun hm => ?_, i1⟩, fun q hq => ?_⟩
      · obtain ⟨q, hq, e⟩ := List.mem_map.1 hm
        refine (i2 q hq).1 j ?_ (by simp)
        have : q.2 = v := e
        rw [this, hr]
      · rcases List.mem_cons.1 hq with rfl | hq
        · refine ⟨fun j' h2 => ?_, fun h2 => ?_⟩
          · have h2' : rIdx.lookup v = some j' := h2
            rw [hr] at h2'
            cases h2'
            exact hj
          · have h2' : rIdx.lookup v = none := h2
            rw [hr] at h2'
            cases h2'
        · exact ⟨fun j' h2 h3 => (i2 q hq).1 j' h2 (List.mem_cons_of_mem _ h3), (i2 q hq).2⟩
    | none =>
      simp only [hr] at h
      cases hz : zIdx.lookup v with
      | none => simp [hz] at h
      | some j =>
        simp only [hz] at h
        split_ifs at h with hj
        obtain ⟨t', h', -⟩ := Option.map_eq_some_iff.1 h
        obtain ⟨i1, i2⟩ := ih h'
        refine ⟨List.nodup_cons.2 ⟨fun hm => ?_, i1⟩, fun q hq => ?_⟩
        · obtain ⟨q, hq, e⟩ := List.mem_map.1 hm
          have : q.2 = v := e
          refine (i2 q hq).2 (by rw [this, hr]) j ?_ (by simp)
          rw [this, hz]
        · rcases List.mem_cons.1 hq with rfl | hq
          · refine ⟨fun j' h2 => ?_, fun _ j' h2 => ?_⟩
            · have h2' : rIdx.lookup v = some j' := h2
              rw [hr] at h2'
              cases h2'
            · have h2' : zIdx.lookup v = some j' := h2
              rw [hz] at h2'
              cases h2'
              exact hj
          · exact ⟨(i2 q hq).1, fun h0 j' h2 h3 => (i2 q hq).2 h0 j' h2 (List.mem_cons_of_mem _ h3)⟩

theorem loose_addLConstr {a b : Mip K} (h : Loose a b) (c : List (Vec K)) (x : List (List ℕ)) (s : Sense) (e : K) :
    LooseM (a.addLConstr c x s e) (b.addLConstr c x s e) := by
  intro a' ha
  obtain ⟨-, -, -, -, -, -, -, hk, hl⟩ := addLConstr_inv ha h.wfa
  have hl1 : c.length = x.length := by simpa using congrArg List.length hl
  have hnd : x.flatten.Nodup := by
    have : (a.addLConstr c x s e).isSome := by rw [ha]; rfl
    unfold Mip.addLConstr at this
    rw [if_pos ⟨hl1, hl⟩] at this
    cases hloop : lconstrLoop a.rIdx a.zIdx (c.flatten.zip x.flatten) [] [] with
    | none => simp [hloop] at this
    | some t =>
      have := (lconstrLoop_nodup hloop).1
      rwa [List.map_snd_zip (length_flatten_eq hl).ge] at this
  obtain ⟨b', hb⟩ := addLConstr_isSome b h.wfb c x s e hl1 hl hnd (by rw [← h.n]; exact hk)
  refine ⟨b', hb, addLConstr_wf ha h.wfa, addLConstr_wf hb h.wfb,
    by rw [addLConstr_n ha h.wfa, addLConstr_n hb h.wfb, h.n], fun v hv => ?_⟩
  obtain ⟨h1, h2⟩ := (addLConstr_feas ha h.wfa v).1 hv
  exact (addLConstr_feas hb h.wfb v).2 ⟨h.feas v h1, h2⟩

/-- New variables, of the same type or continuous ones in place of binaries. -/
theorem loose_addVars {a b : Mip K} (h : Loose a b) (num : ℕ) (lb ub : List (Option K)) {t t' : VType}
    (ht : t' = t ∨ t' = .continuous ∧ t = .binary) : LooseP (a.addVars num lb ub t) (b.addVars num lb ub t') := by
  intro a' ids ha
  obtain ⟨h1, h2, h3, h4, -⟩ := addVars_inv ha
  have ht3 : t' ≠ .other := by
    rcases ht with rfl | ⟨rfl, -⟩
    · exact h3
    · simp
  obtain ⟨b', hb⟩ := addVars_isSome b h1 h2 ht3
  rw [← h.n, ← h4] at hb
  refine ⟨b', hb, addVars_wf ha h.wfa, addVars_wf hb h.wfb, by rw [addVars_n ha, addVars_n hb, h.n], fun v hv => ?_⟩
  obtain ⟨g1, g2⟩ := (addVars_feas ha v).1 hv
  refine (addVars_feas hb v).2 ⟨h.feas v g1, ?_⟩
  rcases ht with rfl | ⟨rfl, rfl⟩
  · exact g2
  · intro k hk
    obtain ⟨q1, q2, -⟩ := g2 k hk
    exact ⟨q1, q2, by simp [newGVar]⟩

theorem loose_setVarBound {a b : Mip K} (h : Loose a b) (ids : List ℕ) (lo up : Option (List (Option K)))
    (hi : ∀ i ∈ ids, i < a.n) : LooseM (a.setVarBound ids lo up) (b.setVarBound ids lo up) := by
  intro a' ha
  obtain ⟨b', hb⟩ : ∃ b', b.setVarBound ids lo up = some b' := by
    have : (a.setVarBound ids lo up).isSome := by rw [ha]; rfl
    unfold Mip.setVarBound at this ⊢
    split_ifs at this ⊢ with hc
    · exact ⟨_, rfl⟩
    · simp at this
  refine ⟨b', hb, setVarBound_wf ha h.wfa, setVarBound_wf hb h.wfb, by rw [setVarBound_n ha, setVarBound_n hb, h.n],
    fun v hv => ?_⟩
  obtain ⟨h1, h2⟩ := (setVarBound_feas ha hi v).1 hv
  exact (setVarBound_feas hb (by rw [← h.n]; exact hi) v).2 ⟨h.feas v h1, h2⟩

theorem loose_addBlock {a b : Mip K} (h : Loose a b) (Ax As Az : Option (Tensor2 K)) (rhs : Option (Vec K))
    (s : Sense) (x sl z : List ℕ) : LooseM (a.addBlock Ax As Az rhs s x sl z) (b.addBlock Ax As Az rhs s x sl z) := by
  unfold Mip.addBlock
  cases rhs with
  | none => exact LooseM.some h
  | some c =>
    dsimp only
    split_ifs
    · exact loose_addMConstr h _ _ _ _
    · exact LooseM.some h

theorem loose_addSlack {a b : Mip K} (h : Loose a b) (c : MIC K) : LooseP (a.addSlack c) (b.addSlack c) := by
  unfold Mip.addSlack
  refine LooseP.ite ?_ (LooseP.some h _)
  refine (loose_addVars h _ _ _ (Or.inl rfl)).bindP fun a' b' ids ha hab => ?_
  refine (loose_setVarBound hab _ _ _ fun i hi => ?_).bindP fun a2 b2 h2 => LooseP.some h2 _
  rw [(addVars_inv ha).2.2.2.1] at hi
  rw [addVars_n ha]
  exact (List.mem_range'_1.1 hi).2

theorem loose_addBin {a b : Mip K} (h : Loose a b) (c : MIC K) {t t' : VType}
    (ht : t' = t ∨ t' = .continuous ∧ t = .binary) : LooseP (a.addBin c .fresh t) (b.addBin c .fresh t') := by
  unfold Mip.addBin
  refine LooseP.ite ?_ (LooseP.some h _)
  refine (loose_addVars h _ _ _ ht).bindP fun a' b' ids ha hab => ?_
  refine (loose_setVarBound hab _ _ _ fun i hi => ?_).bindP fun a2 b2 h2 => LooseP.some h2 _
  rw [(addVars_inv ha).2.2.2.1] at hi
  rw [addVars_n ha]
  exact (List.mem_range'_1.1 hi).2

theorem loose_addMIC {a b : Mip K} (h : Loose a b) (c : MIC K) (x : List ℕ) {t t' : VType}
    (ht : t' = t ∨ t' = .continuous ∧ t = .binary) (hx : ∀ i ∈ x, i < a.n) :
    LooseP (a.addMIC c x none .fresh t) (b.addMIC c x none .fresh t') := by
  unfold Mip.addMIC
  refine (loose_setVarBound h _ _ _ hx).bindP fun a1 b1 h1 => ?_
  refine (loose_addSlack h1 c).bindP fun a2 b2 s _ h2 => ?_
  refine (loose_addBin h2 c ht).bindP fun a3 b3 z _ h3 => ?_
  refine (loose_addBlock h3 _ _ _ _ _ _ _ _).bindP fun a4 b4 h4 => ?_
  refine (loose_addBlock h4 _ _ _ _ _ _ _ _).bindP fun a5 b5 h5 => ?_
  exact (LooseM.some h5 : LooseM (a5.addOut c none x s z) (b5.addOut c none x s z)).bindP fun a6 b6 h6 =>
    LooseP.some h6 _

/-! ### The controller -/

theorem loose_addSaturation {a b : Mip K} (h : Loose a b) (x y : ℕ) (l u lo up : K) {t t' : VType}
    (ht : t' = t ∨ t' = .continuous ∧ t = .binary) :
    LooseP (a.addSaturation x y l u lo up t) (b.addSaturation x y l u lo up t') := by
  unfold Mip.addSaturation
  refine LooseP.ite ((loose_addLConstr h _ _ _ _).bindP fun _ _ h1 => LooseP.some h1 _) ?_
  refine LooseP.ite ((loose_addLConstr h _ _ _ _).bindP fun _ _ h1 => LooseP.some h1 _) ?_
  refine LooseP.ite ((loose_addLConstr h _ _ _ _).bindP fun _ _ h1 => LooseP.some h1 _) ?_
  refine LooseP.ite ?_ (LooseP.ite ?_ ?_)
  · refine LooseP.opt _ fun R => (loose_addVars h _ _ _ ht).bindP fun a1 b1 ids _ h1 => ?_
    exact (loose_addMConstr h1 _ _ _ _).bindP fun _ _ h2 => LooseP.some h2 _
  · refine LooseP.opt _ fun R => (loose_addVars h _ _ _ ht).bindP fun a1 b1 ids _ h1 => ?_
    exact (loose_addMConstr h1 _ _ _ _).bindP fun _ _ h2 => LooseP.some h2 _
  · refine (loose_addVars h _ _ _ (Or.inl rfl)).bindP fun a1 b1 ids _ h1 => ?_
    refine (loose_addVars h1 _ _ _ ht).bindP fun a2 b2 ids2 _ h2 => ?_
    refine (loose_addLConstr h2 _ _ _ _).bindP fun a3 b3 h3 => ?_
    refine LooseP.opt _ fun R1 => (loose_addMConstr h3 _ _ _ _).bindP fun a4 b4 h4 => ?_
    refine LooseP.opt _ fun R2 => (loose_addMConstr h4 _ _ _ _).bindP fun a5 b5 h5 => LooseP.some h5 _

theorem loose_satTurn {a b : Mip K} (h : Loose a b) (u pre : ℕ) (l up : Ext K) (pl pu : K) {t t' : VType}
    (ht : t' = t ∨ t' = .continuous ∧ t = .binary) :
    LooseM (satTurn u pre l up pl pu a t) (satTurn u pre l up pl pu b t') := by
  unfold satTurn
  split_ifs
  · exact loose_addLConstr h _ _ _ _
  · split
    · exact (loose_addSaturation h _ _ _ _ _ _ ht).mapFst
    · exact LooseM.none _

theorem loose_satLoop {t t' : VType} (ht : t' = t ∨ t' = .continuous ∧ t = .binary) :
    ∀ (us pres : List ℕ) (ls hs : List (Ext K)) (as bs : Vec K) (a b : Mip K), Loose a b →
      LooseM (satLoop t us pres ls hs as bs a) (satLoop t' us pres ls hs as bs b)
  | [], _, _, _, _, _, a, b, h => by simp only [satLoop]; exact LooseM.some h
  | u :: us, pre :: pres, l :: ls, hh :: hs, x :: as, y :: bs, a, b, h => by
    simp only [satLoop]
    exact (loose_satTurn h u pre l hh x y ht).bindM fun a1 b1 h1 => loose_satLoop ht us pres ls hs as bs a1 b1 h1
  | _ :: _, [], _, _, _, _, a, b, h => by simp only [satLoop]; exact LooseM.none _
  | _ :: _, _ :: _, [], _, _, _, a, b, h => by simp only [satLoop]; exact LooseM.none _
  | _ :: _, _ :: _, _ :: _, [], _, _, a, b, h => by simp only [satLoop]; exact LooseM.none _
  | _ :: _, _ :: _, _ :: _, _ :: _, [], _, a, b, h => by simp only [satLoop]; exact LooseM.none _
  | _ :: _, _ :: _, _ :: _, _ :: _, _ :: _, [], a, b, h => by simp only [satLoop]; exact LooseM.none _

theorem loose_addInputSat {a b : Mip K} (h : Loose a b) (u pre : List ℕ) (l up : List (Ext K)) (pl pu : Vec K)
    {t t' : VType} (ht : t' = t ∨ t' = .continuous ∧ t = .binary) :
    LooseP (addInputSat a u pre l up pl pu t) (addInputSat b u pre l up pl pu t') := by
  unfold addInputSat
  refine LooseP.ite ?_ (LooseP.none _)
  refine (loose_satLoop ht _ _ _ _ _ _ _ _ h).bindP fun a1 b1 h1 => ?_
  exact LooseP.opt _ fun lo => LooseP.opt _ fun hi => LooseP.ite (LooseP.some h1 _) (LooseP.none _)

theorem loose_addNetCtrl (S : Feedback K) (N : Net K) (c : MIC K) (outLo outUp : Vec K) {a b : Mip K} (h : Loose a b)
    (x u : List ℕ) {t t' : VType} (ht : t' = t ∨ t' = .continuous ∧ t = .binary) (hx : ∀ i ∈ x, i < a.n) :
    LooseP (S.addNetCtrlGiven N c outLo outUp a x u t) (S.addNetCtrlGiven N c outLo outUp b x u t') := by
  unfold Feedback.addNetCtrlGiven
  refine (loose_addMIC h c x ht hx).bindP fun a1 b1 s _ h1 => ?_
  refine (loose_addVars h1 _ _ _ (Or.inl rfl)).bindP fun a2 b2 p _ h2 => ?_
  refine LooseP.opt _ fun A => LooseP.opt _ fun C => (loose_addMConstr h2 _ _ _ _).bindP fun a3 b3 h3 => ?_
  exact (loose_addInputSat h3 _ _ _ _ _ _ ht).bindP fun a4 b4 r' _ h4 => LooseP.some h4 _

end NNL.Model
