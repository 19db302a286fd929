import Verif.Model.DynObject

/-!
# C136: building, saving and loading the learners of the dynamics
-/

namespace NNL.Spec
open NNL.Model

variable {F X P D I : Type}

/-- After the calls of `save` the last one with this directory is `c`. -/
def LastSave (calls : List (SaveCall F X P D I)) (path : F) (c : SaveCall F X P D I) : Prop :=
  c.path = path ∧ ∃ before after, calls = before ++ c :: after ∧ ∀ d ∈ after, d.path ≠ path

/-- A candidate a learner is built with. -/
def Usable (l : HybLyap X P) : Prop := l.isHybrid = true ∧ l.autonomous = true

/-- A learner which has just been built around `l`: no optimizer, no step, and its adversarial states are the
equilibrium. -/
structure FreshLearner (l : HybLyap X P) (o : LearnOpt D) (b : DynLearner X P D) : Prop where
  lyap : b.lyap = l
  opt : b.opt = o
  optimizer : b.optimizer = none
  nIter : b.nIter = 0
  posAdv : b.posAdv = l.xEq
  derLoAdv : b.derLoAdv = l.xEq
  derUpAdv : b.derUpAdv = l.xEq

/-- An image with two or six channels of the size in the options. -/
def RightImage (o : LearnOpt D) (s : List ℕ) : Prop := s = [2, o.width, o.height] ∨ s = [6, o.width, o.height]

end NNL.Spec

namespace NNL.Props
open NNL.Model NNL.Spec

variable {F X P D I : Type}

/-- **C136.** The learner in the state space accepts exactly the candidates of the right classes, and starts fresh. -/
theorem C136_new_state (l : HybLyap X P) (o : LearnOpt D) (b : DynLearner X P D) :
    DynLearner.new l o = some b ↔ Usable l ∧ FreshLearner l o b := by
  unfold DynLearner.new Usable
  constructor
  · intro h
    split_ifs at h with hc
    cases h
    exact ⟨by simpa using hc, ⟨rfl, rfl, rfl, rfl, rfl, rfl, rfl⟩⟩
  · rintro ⟨⟨h1, h2⟩, ⟨e1, e2, e3, e4, e5, e6, e7⟩⟩
    rw [h1, h2]
    cases b
    dsimp only at e1 e2 e3 e4 e5 e6 e7
    subst e1 e2 e3 e4 e5 e6 e7
    rfl

theorem imageShapeOk_iff (o : LearnOpt D) (s : List ℕ) : imageShapeOk o s = true ↔ RightImage o s := by
  unfold imageShapeOk RightImage
  match s with
  | [] => simp
  | [a] => simp
  | [a, b] => simp
  | [a, b, c] =>
    simp only [List.length_cons, List.length_nil, List.tail_cons, List.head?_cons, Bool.and_eq_true, decide_eq_true_eq,
      Bool.or_eq_true, beq_iff_eq, Option.some.injEq, List.cons.injEq, and_true]
    constructor
    · rintro ⟨⟨-, h⟩, h1 | h1⟩
      · exact Or.inl ⟨h1, h⟩
      · exact Or.inr ⟨h1, h⟩
    · rintro (⟨h1, h⟩ | ⟨h1, h⟩)
      · exact ⟨⟨trivial, h⟩, Or.inl h1⟩
      · exact ⟨⟨trivial, h⟩, Or.inr h1⟩
  | a :: b :: c :: d :: t => simp

/-- **C136.** The learner in a latent space accepts exactly those candidates, with no decoded equilibrium or with one of
two or six channels of the size in the options. It starts fresh, the encoder and the decoder have the type of the
options, and the candidate is taken as it is. -/
theorem C136_new_latent (cast : D → P → P) (l : HybLyap X P) (o : LearnOpt D) (e d : P) (q : Option (List ℕ × I))
    (s : LatentLearner X P D I) :
    LatentLearner.new cast l o e d q = some s ↔
      Usable l ∧ (∀ im, q = some im → RightImage o im.1) ∧ FreshLearner l o s.toDynLearner ∧
        s.encoder = cast o.dtype e ∧ s.decoder = cast o.dtype d ∧ s.decodedEq = q := by
  unfold LatentLearner.new
  constructor
  · intro h
    cases hb : DynLearner.new l o with
    | none => rw [hb] at h; cases h
    | some b =>
      rw [hb] at h
      have hn := (C136_new_state l o b).1 hb
      cases q with
      | none =>
        dsimp only at h
        cases h
        exact ⟨hn.1, (by intro im h; cases h), hn.2, rfl, rfl, rfl⟩
      | some im =>
        dsimp only at h
        split_ifs at h with hi
        cases h
        refine ⟨hn.1, ?_, hn.2, rfl, rfl, rfl⟩
        intro im' h'
        cases h'
        exact (imageShapeOk_iff o im.1).1 hi
  · rintro ⟨hu, hq, hf, h1, h2, h3⟩
    rw [(C136_new_state l o s.toDynLearner).2 ⟨hu, hf⟩]
    cases q with
    | none =>
      dsimp only
      rw [← h1, ← h2, ← h3]
    | some im =>
      dsimp only
      rw [if_pos ((imageShapeOk_iff o im.1).2 (hq im rfl)), ← h1, ← h2, ← h3]

section
variable [DecidableEq F]

theorem run_saves (calls : List (SaveCall F X P D I)) (st : PickleStore F X P I) (path : F) (c : SaveCall F X P D I)
    (h : LastSave calls path c) : calls.foldl SaveCall.run st path = some c.content := by
  obtain ⟨hp, before, after, rfl, ha⟩ := h
  rw [List.foldl_append, List.foldl_cons]
  have key : ∀ (l : List (SaveCall F X P D I)) (t : PickleStore F X P I), (∀ d ∈ l, d.path ≠ path) →
      l.foldl SaveCall.run t path = t path := by
    intro l
    induction l with
    | nil => intro t _; rfl
    | cons d l ih =>
      intro t hl
      rw [List.foldl_cons, ih _ fun x hx => hl x (List.mem_cons_of_mem _ hx)]
      unfold SaveCall.run
      rw [Function.update_of_ne (hl d List.mem_cons_self).symm]
  rw [key after _ ha]
  unfold SaveCall.run
  rw [← hp, Function.update_self]

/-- **C136.** Whatever was saved, and where, before and after: loading from a directory gives a learner of the state
space around the candidate saved there last, by a learner of either class. Everything else is fresh: the options are the
ones given, and the optimizer, the number of steps and the adversarial states found are lost. -/
theorem C136_load_state (calls : List (SaveCall F X P D I)) (st : PickleStore F X P I) (path : F) (o : LearnOpt D) :
    (∀ b, LastSave calls path (.state path b) → Usable b.lyap →
      ∃ r, loadState (calls.foldl SaveCall.run st) path o = some r ∧ FreshLearner b.lyap o r) ∧
    (∀ s : LatentLearner X P D I, LastSave calls path (.latent path s) → Usable s.lyap →
      ∃ r, loadState (calls.foldl SaveCall.run st) path o = some r ∧ FreshLearner s.lyap o r) := by
  constructor
  · intro b h hu
    unfold loadState
    rw [run_saves calls st path _ h]
    exact ⟨⟨b.lyap, o, none, 0, b.lyap.xEq, b.lyap.xEq, b.lyap.xEq⟩, (C136_new_state b.lyap o _).2 ⟨hu, ⟨rfl, rfl, rfl, rfl, rfl, rfl, rfl⟩⟩,
      ⟨rfl, rfl, rfl, rfl, rfl, rfl, rfl⟩⟩
  · intro s h hu
    unfold loadState
    rw [run_saves calls st path _ h]
    exact ⟨⟨s.lyap, o, none, 0, s.lyap.xEq, s.lyap.xEq, s.lyap.xEq⟩, (C136_new_state s.lyap o _).2 ⟨hu, ⟨rfl, rfl, rfl, rfl, rfl, rfl, rfl⟩⟩,
      ⟨rfl, rfl, rfl, rfl, rfl, rfl, rfl⟩⟩

/-- **C136.** A learner in a latent space is loaded from what a learner in a latent space saved last: with the type of
its networks and the size of its image in the options, all four objects are the saved ones, and the rest is fresh. -/
theorem C136_load_latent (cast : D → P → P) (calls : List (SaveCall F X P D I)) (st : PickleStore F X P I) (path : F)
    (o : LearnOpt D) (s : LatentLearner X P D I) (h : LastSave calls path (.latent path s)) (hu : Usable s.lyap)
    (he : cast o.dtype s.encoder = s.encoder) (hd : cast o.dtype s.decoder = s.decoder)
    (hq : ∀ im, s.decodedEq = some im → RightImage o im.1) :
    ∃ r, loadLatent cast (calls.foldl SaveCall.run st) path o = some r ∧ FreshLearner s.lyap o r.toDynLearner ∧
      r.encoder = s.encoder ∧ r.decoder = s.decoder ∧ r.decodedEq = s.decodedEq := by
  unfold loadLatent
  rw [run_saves calls st path _ h]
  exact ⟨⟨⟨s.lyap, o, none, 0, s.lyap.xEq, s.lyap.xEq, s.lyap.xEq⟩, s.encoder, s.decoder, s.decodedEq⟩,
    (C136_new_latent cast s.lyap o s.encoder s.decoder s.decodedEq _).2
      ⟨hu, hq, ⟨rfl, rfl, rfl, rfl, rfl, rfl, rfl⟩, he.symm, hd.symm, rfl⟩,
    ⟨rfl, rfl, rfl, rfl, rfl, rfl, rfl⟩, rfl, rfl, rfl⟩

/-- **C136.** Options with another size of the image refuse the file, and so does a file that a learner in the state
space saved last: both classes use the same name of the file. A directory where nothing was saved is refused. -/
theorem C136_refused (cast : D → P → P) (calls : List (SaveCall F X P D I)) (st : PickleStore F X P I) (path : F)
    (o : LearnOpt D) :
    (∀ (s : LatentLearner X P D I) (im : List ℕ × I), LastSave calls path (.latent path s) → s.decodedEq = some im →
      ¬ RightImage o im.1 → loadLatent cast (calls.foldl SaveCall.run st) path o = none) ∧
    (∀ b, LastSave calls path (.state path b) → loadLatent cast (calls.foldl SaveCall.run st) path o = none) ∧
    (st path = none → (∀ c ∈ calls, c.path ≠ path) →
      loadLatent cast (calls.foldl SaveCall.run st) path o = none ∧
        loadState (calls.foldl SaveCall.run st) path o = none) := by
  refine ⟨?_, ?_, ?_⟩
  · intro s im h hs hn
    unfold loadLatent
    rw [run_saves calls st path _ h]
    dsimp only [SaveCall.content]
    cases hl : LatentLearner.new cast s.lyap o s.encoder s.decoder s.decodedEq with
    | none => rfl
    | some r => exact absurd (((C136_new_latent cast _ o _ _ _ r).1 hl).2.1 im hs) hn
  · intro b h
    unfold loadLatent
    rw [run_saves calls st path _ h]
    rfl
  · intro hst hc
    have key : ∀ (l : List (SaveCall F X P D I)) (t : PickleStore F X P I), (∀ d ∈ l, d.path ≠ path) →
        l.foldl SaveCall.run t path = t path := by
      intro l
      induction l with
      | nil => intro t _; rfl
      | cons d l ih =>
        intro t hl
        rw [List.foldl_cons, ih _ fun x hx => hl x (List.mem_cons_of_mem _ hx)]
        unfold SaveCall.run
        rw [Function.update_of_ne (hl d List.mem_cons_self).symm]
    have hk := (key calls st hc).trans hst
    unfold loadLatent loadState
    rw [hk]
    exact ⟨rfl, rfl⟩

/-- **C136.** With another type in the options the encoder and the decoder are converted on loading, and the networks of
the candidate and of the dynamics are not. -/
theorem C136_load_dtype (cast : D → P → P) (calls : List (SaveCall F X P D I)) (st : PickleStore F X P I) (path : F)
    (o : LearnOpt D) (s r : LatentLearner X P D I) (h : LastSave calls path (.latent path s))
    (hr : loadLatent cast (calls.foldl SaveCall.run st) path o = some r) :
    r.encoder = cast o.dtype s.encoder ∧ r.decoder = cast o.dtype s.decoder ∧ r.lyap = s.lyap := by
  unfold loadLatent at hr
  rw [run_saves calls st path _ h] at hr
  have := (C136_new_latent cast s.lyap o s.encoder s.decoder s.decodedEq r).1 hr
  exact ⟨this.2.2.2.1, this.2.2.2.2.1, this.2.2.1.lyap⟩

end

/-- The networks of a latent learner. -/
def netOf (s : LatentLearner X P D I) : LearnNet → P
  | .relu => s.lyap.relu
  | .dynRelu => s.lyap.dynRelu
  | .encoder => s.encoder
  | .decoder => s.decoder

/-- **C136.** Any number of steps of the optimizer change a network exactly if it was given to the optimizer: then all
the updates are applied in order, and otherwise none. The equilibrium, the options and the optimizer stay. -/
theorem C136_steps (us : List (LearnNet → P → P)) (s : LatentLearner X P D I) (o : List LearnNet)
    (ho : s.optimizer = some o) :
    ∃ r, s.steps us = some r ∧ r.optimizer = some o ∧ r.lyap.xEq = s.lyap.xEq ∧ r.opt = s.opt ∧
      r.decodedEq = s.decodedEq ∧
      ∀ n, netOf r n = if n ∈ o then us.foldl (fun p u => u n p) (netOf s n) else netOf s n := by
  induction us generalizing s with
  | nil => exact ⟨s, rfl, ho, rfl, rfl, rfl, fun n => by rw [List.foldl_nil, ite_self]⟩
  | cons u us ih =>
    obtain ⟨t, ht⟩ : ∃ t, s.step u = some t := by
      unfold LatentLearner.step
      rw [ho]
      exact ⟨_, rfl⟩
    have hst : t.optimizer = some o ∧ t.lyap.xEq = s.lyap.xEq ∧ t.opt = s.opt ∧ t.decodedEq = s.decodedEq ∧
        ∀ n, netOf t n = if n ∈ o then u n (netOf s n) else netOf s n := by
      unfold LatentLearner.step at ht
      rw [ho] at ht
      cases ht
      refine ⟨rfl, rfl, rfl, rfl, ?_⟩
      intro n
      cases n <;> rfl
    obtain ⟨r, hr, h1, h2, h3, h4, h5⟩ := ih t hst.1
    refine ⟨r, ?_, h1, h2.trans hst.2.1, h3.trans hst.2.2.1, h4.trans hst.2.2.2.1, ?_⟩
    · unfold LatentLearner.steps
      rw [ht]
      exact hr
    · intro n
      rw [h5 n, hst.2.2.2.2 n, List.foldl_cons]
      by_cases hn : n ∈ o
      · rw [if_pos hn, if_pos hn, if_pos hn]
      · rw [if_neg hn, if_neg hn, if_neg hn]

/-- **C136.** A learner reset for the Lyapunov function only trains that network in any number of steps, and a learner
that has no optimizer trains all its networks: the two of the candidate, and in a latent space the encoder and the
decoder too. So the choice is lost by saving and loading. -/
theorem C136_trained (s : LatentLearner X P D I) :
    (∀ params, ((s.toDynLearner.reset params true).startTrain latentParams).optimizer = some [.relu]) ∧
    (s.optimizer = none → (s.toDynLearner.startTrain latentParams).optimizer = some latentParams ∧
      (s.toDynLearner.startTrain latentParams).nIter = 0 ∧ ∀ n, n ∈ latentParams) ∧
    (∀ n, n ∈ stateParams ↔ n = .relu ∨ n = .dynRelu) ∧
    (∀ o, s.optimizer = some o → s.toDynLearner.startTrain latentParams = s.toDynLearner) := by
  refine ⟨fun _ => rfl, ?_, ?_, ?_⟩
  · intro h
    unfold DynLearner.startTrain
    rw [h]
    exact ⟨rfl, rfl, fun n => by cases n <;> decide⟩
  · intro n
    cases n <;> decide
  · intro o h
    unfold DynLearner.startTrain
    rw [h]

/-! ## A case -/

def exHyb : HybLyap ℕ ℕ := ⟨true, true, 3, 4, 5⟩
def exLatentLearner : LatentLearner ℕ ℕ ℕ Unit :=
  ⟨⟨exHyb, ⟨0, 8, 9⟩, some [.relu], 17, 1, 2, 3⟩, 6, 7, some ([2, 8, 9], ())⟩

/-- Two saves in one directory and one in another between them: the last one counts, and the options, the optimizer and
the steps are not those of the learner that was saved. -/
example : ∃ r, loadLatent (fun d n => n + d)
    ([SaveCall.state 1 ⟨exHyb, ⟨0, 8, 9⟩, none, 0, 0, 0, 0⟩, .latent 1 exLatentLearner,
      .state 2 ⟨exHyb, ⟨0, 8, 9⟩, none, 0, 0, 0, 0⟩].foldl SaveCall.run (fun _ => none)) 1 ⟨0, 8, 9⟩ = some r ∧
    r.encoder = 6 ∧ r.optimizer = none ∧ r.nIter = 0 ∧ r.posAdv = 5 := by
  obtain ⟨r, hr, hf, h1, -, -⟩ := C136_load_latent (fun d n => n + d)
    [SaveCall.state 1 ⟨exHyb, ⟨0, 8, 9⟩, none, 0, 0, 0, 0⟩, .latent 1 exLatentLearner,
      .state 2 ⟨exHyb, ⟨0, 8, 9⟩, none, 0, 0, 0, 0⟩] (fun _ => none) 1 ⟨0, 8, 9⟩ exLatentLearner
    ⟨rfl, [SaveCall.state 1 ⟨exHyb, ⟨0, 8, 9⟩, none, 0, 0, 0, 0⟩], [SaveCall.state 2 ⟨exHyb, ⟨0, 8, 9⟩, none, 0, 0, 0, 0⟩],
      rfl, by intro d hd; rw [List.mem_singleton] at hd; subst hd; decide⟩
    ⟨rfl, rfl⟩ rfl rfl (by intro im h; cases h; exact Or.inl rfl)
  exact ⟨r, hr, h1, hf.optimizer, hf.nIter, hf.posAdv⟩

/-- Two steps with the optimizer of the Lyapunov function only. -/
example : (exLatentLearner.steps [fun _ p => p + 1, fun _ p => p * 2]).map (fun r => (netOf r .relu, netOf r .dynRelu)) =
    some (8, 4) := rfl

end NNL.Props
