import Verif.Model.ModelFiles
import Verif.Spec.ModelFiles
import Verif.Spec.Lyapunov
import Verif.Props.Params
import Verif.Props.Tighten

/-!
# C120: saving and loading model files
-/

set_option linter.unusedSectionVars false

namespace NNL.Props

open NNL NNL.Spec NNL.Model

variable {K : Type*} [Field K] [LinearOrder K] [IsStrictOrderedRing K]

/-! ### Keys of a state dict -/

theorem stateDict_key : ∀ (ls : List (Layer K)) (i : ℕ), ∀ e ∈ stateDict i ls, i ≤ e.1.1
  | [], i, e, h => by simp [stateDict] at h
  | .act _ :: ls, i, e, h => by have := stateDict_key ls (i + 1) e h; omega
  | .lin l :: ls, i, e, h => by
    simp only [stateDict, List.mem_cons, List.mem_append] at h
    rcases h with rfl | h | h
    · exact le_refl _
    · cases hb : l.bias with
      | none => rw [hb] at h; simp at h
      | some b =>
        rw [hb] at h
        simp only [List.mem_singleton] at h
        subst h
        exact le_refl _
    · have := stateDict_key ls (i + 1) e h
      omega

theorem lookup_none_of {α β : Type*} [BEq α] [LawfulBEq α] (k : α) :
    ∀ l : List (α × β), (∀ e ∈ l, e.1 ≠ k) → l.lookup k = none
  | [], _ => rfl
  | (a, b) :: l, h => by
    have h1 : (k == a) = false := by
      have := h (a, b) (by simp)
      simp only [beq_eq_false_iff_ne]
      exact fun e => this e.symm
    rw [List.lookup_cons, h1]
    exact lookup_none_of k l fun e he => h e (by simp [he])

theorem lookup_later (ls : List (Layer K)) (i j : ℕ) (b : Bool) (h : j < i) : (stateDict i ls).lookup (j, b) = none :=
  lookup_none_of _ _ fun e he hk => by have := stateDict_key ls i e he; rw [hk] at this; simp only at this; omega

theorem lookup_weight (l : Lin K) (ls : List (Layer K)) (i : ℕ) :
    (stateDict i (.lin l :: ls)).lookup (i, false) = some (.mat l.inF l.W) := by
  simp [stateDict]

theorem lookup_bias (l : Lin K) (ls : List (Layer K)) (i : ℕ) :
    (stateDict i (.lin l :: ls)).lookup (i, true) = l.bias.map .vec := by
  have h : ((i, true) == ((i, false) : ℕ × Bool)) = false := by simp
  rw [stateDict, List.lookup_cons, h]
  cases hb : l.bias with
  | none => simpa using lookup_later ls (i + 1) i true (by omega)
  | some b => simp

theorem lookup_next (a : Layer K) (ls : List (Layer K)) (i j : ℕ) (b : Bool) (h : i < j) :
    (stateDict i (a :: ls)).lookup (j, b) = (stateDict (i + 1) ls).lookup (j, b) := by
  cases a with
  | act a => rfl
  | lin l =>
    have h1 : ∀ c, ((j, b) == ((i, c) : ℕ × Bool)) = false := by
      intro c
      simp only [beq_eq_false_iff_ne, ne_eq, Prod.mk.injEq, not_and]
      intro e
      omega
    rw [stateDict, List.lookup_cons, h1]
    cases hb : l.bias with
    | none => rfl
    | some c =>
      simp only [List.cons_append, List.nil_append]
      rw [List.lookup_cons, h1]

/-- Only the keys from position `i` on matter. -/
theorem loadFrom_congr (sd sd' : List ((ℕ × Bool) × SdVal K)) : ∀ (t : List (Layer K)) (i : ℕ),
    (∀ j b, i ≤ j → sd.lookup (j, b) = sd'.lookup (j, b)) → loadFrom sd i t = loadFrom sd' i t
  | [], i, h => rfl
  | .act a :: t, i, h => by
    rw [loadFrom, loadFrom, loadFrom_congr sd sd' t (i + 1) fun j b hj => h j b (by omega)]
  | .lin l :: t, i, h => by
    rw [loadFrom, loadFrom, loadFrom_congr sd sd' t (i + 1) fun j b hj => h j b (by omega), loadWeight, loadWeight,
      loadBias, loadBias, h i _ (le_refl _), h i _ (le_refl _)]

theorem loadFrom_next (a : Layer K) (ls t : List (Layer K)) (i : ℕ) :
    loadFrom (stateDict i (a :: ls)) (i + 1) t = loadFrom (stateDict (i + 1) ls) (i + 1) t :=
  loadFrom_congr _ _ t (i + 1) fun j b h => lookup_next a ls i j b (by omega)

/-! ### New networks -/

/-- Shape of a linear layer. -/
def LinShape (i o : ℕ) (β : Bool) (m : Lin K) : Prop :=
  m.inF = i ∧ m.W.length = o ∧ m.bias.isSome = β ∧ ∀ b, m.bias = some b → b.length = o

/-- What `setup_relu` makes: linear layers with these widths, with an activation between two of them. -/
def FreshNet (a : K) (β : Bool) : List ℕ → List (Layer K) → Prop
  | [i, o], [.lin m] => LinShape i o β m
  | i :: o :: c :: ws, .lin m :: .act s :: t => LinShape i o β m ∧ s = .leaky a ∧ FreshNet a β (o :: c :: ws) t
  | _, _ => False

theorem setupLin_shape (i o : ℕ) (β : Bool) (init : Vec K) (h : i * o + (if β then o else 0) ≤ init.length) :
    ∃ m, setupLin i o β init = some (m, init.drop (i * o + if β then o else 0)) ∧ LinShape i o β m := by
  have hr : (reshape o i (init.take (i * o))).isSome := by
    rw [reshape, if_pos]
    · rfl
    · rw [List.length_take, Nat.mul_comm o]
      omega
  obtain ⟨W, hW⟩ := Option.isSome_iff_exists.1 hr
  obtain ⟨-, -, h3, -⟩ := reshape_some hW
  rw [setupLin, hW]
  cases β with
  | false => exact ⟨_, by simp; rfl, rfl, h3, rfl, by simp⟩
  | true =>
    refine ⟨_, by simp [List.drop_drop]; rfl, rfl, h3, rfl, ?_⟩
    rintro b ⟨⟩
    simp only [if_true] at h
    rw [List.length_take, List.length_drop]
    omega

theorem setup_freshNet (a : K) (β : Bool) : ∀ (ws : List ℕ) (init : Vec K), 2 ≤ ws.length →
    numWidths β ws ≤ init.length → ∃ t, setupRelu a β ws init = some t ∧ FreshNet a β ws t
  | [], _, h, _ => by simp at h
  | [_], _, h, _ => by simp at h
  | [i, o], init, _, h => by
    obtain ⟨m, h1, h2⟩ := setupLin_shape i o β init (by simpa [numWidths] using h)
    exact ⟨[.lin m], by rw [setupRelu, h1]; rfl, h2⟩
  | i :: o :: c :: ws, init, _, h => by
    have e : numWidths β (i :: o :: c :: ws) = (i * o + if β then o else 0) + numWidths β (o :: c :: ws) := rfl
    rw [e] at h
    obtain ⟨m, h1, h2⟩ := setupLin_shape i o β init (by omega)
    obtain ⟨t, h3, h4⟩ := setup_freshNet a β (o :: c :: ws) (init.drop (i * o + if β then o else 0)) (by simp)
      (by rw [List.length_drop]; omega)
    refine ⟨.lin m :: .act (.leaky a) :: t, ?_, h2, rfl, h4⟩
    rw [setupRelu, h1]
    simp [h3]

/-! ### Loading -/

/-- The network with `LeakyReLU(a)` for every activation. -/
def withSlope (a : K) (net : Net K) : Net K := ⟨net.hidden.map fun p => (p.1, .leaky a), net.last⟩

/-- The linear layers of the network have these widths and this bias flag. -/
def NetShape (β : Bool) : List ℕ → List (Lin K × Act K) → Lin K → Prop
  | [i, o], [], l => LinShape i o β l
  | i :: o :: c :: ws, (m, _) :: hid, l => LinShape i o β m ∧ NetShape β (o :: c :: ws) hid l
  | _, _, _ => False

theorem load_lin {i o : ℕ} {β : Bool} {m l : Lin K} (hm : LinShape i o β m) (hl : LinShape i o β l) (k : ℕ)
    (ls : List (Layer K)) : loadWeight (stateDict k (.lin l :: ls)) k m = some l.W ∧
      loadBias (stateDict k (.lin l :: ls)) k m = some l.bias := by
  obtain ⟨a1, a2, a3, a4⟩ := hm
  obtain ⟨b1, b2, b3, b4⟩ := hl
  refine ⟨?_, ?_⟩
  · rw [loadWeight, lookup_weight]
    simp [a1, b1, a2, b2]
  · rw [loadBias, lookup_bias]
    cases hb : m.bias with
    | none =>
      rw [hb] at a3
      cases hb' : l.bias with
      | none => rfl
      | some b => rw [hb'] at b3; rw [← a3] at b3; cases b3
    | some c =>
      rw [hb] at a3
      cases hb' : l.bias with
      | none => rw [hb'] at b3; rw [← a3] at b3; cases b3
      | some b => simp [a4 c hb, b4 b hb']

/-- Loading into a new network of the right widths gives the linear layers of the file. -/
theorem loadFrom_net (a : K) (β : Bool) (l : Lin K) (tr : List (Layer K)) : ∀ (ws : List ℕ) (t : List (Layer K))
    (hid : List (Lin K × Act K)) (k : ℕ), FreshNet a β ws t → NetShape β ws hid l →
      loadFrom (stateDict k (layersOf ⟨hid, l⟩ ++ tr)) k t = some (layersOf (withSlope a ⟨hid, l⟩))
  | [], t, hid, k, h, _ => by simp [FreshNet] at h
  | [_], t, hid, k, h, _ => by simp [FreshNet] at h
  | [i, o], t, hid, k, h, h' => by
    match t, hid, h, h' with
    | [.lin m], [], h, h' =>
      obtain ⟨e1, e2⟩ := load_lin h h' k tr
      have e3 : layersOf ⟨[], l⟩ ++ tr = .lin l :: tr := rfl
      rw [e3, loadFrom, e1, e2]
      obtain ⟨a1, -⟩ := h
      obtain ⟨b1, -⟩ := h'
      simp [loadFrom, layersOf, withSlope, a1, ← b1]
  | i :: o :: c :: ws, t, hid, k, h, h' => by
    match t, hid, h, h' with
    | .lin m :: .act s :: t, (n, s') :: hid, h, h' =>
      obtain ⟨h1, rfl, h2⟩ := h
      obtain ⟨h3, h4⟩ := h'
      have e3 : layersOf ⟨(n, s') :: hid, l⟩ ++ tr = .lin n :: .act s' :: (layersOf ⟨hid, l⟩ ++ tr) := by
        simp [layersOf]
      have ih := loadFrom_net a β l tr (o :: c :: ws) t hid (k + 1 + 1) h2 h4
      obtain ⟨e1, e2⟩ := load_lin h1 h3 k (.act s' :: (layersOf ⟨hid, l⟩ ++ tr))
      rw [e3, loadFrom, e1, e2, loadFrom_next, loadFrom, loadFrom_next, ih]
      obtain ⟨a1, -⟩ := h1
      obtain ⟨b1, -⟩ := h3
      simp [layersOf, withSlope, a1, ← b1]

theorem mem_keys_bias (l : Lin K) (ls : List (Layer K)) (i : ℕ) :
    (i, true) ∈ (stateDict i (.lin l :: ls)).map Prod.fst ↔ l.bias.isSome := by
  have h : ∀ x, ¬ ((i, true), x) ∈ stateDict (i + 1) ls := by
    intro x hx
    have := stateDict_key ls (i + 1) _ hx
    simp only at this
    omega
  cases hb : l.bias with
  | none => simp [stateDict, hb, h]
  | some b => simp [stateDict, hb]

theorem mem_keys_next (a : Layer K) (ls : List (Layer K)) (i j : ℕ) (b : Bool) (h : i < j) :
    (j, b) ∈ (stateDict i (a :: ls)).map Prod.fst ↔ (j, b) ∈ (stateDict (i + 1) ls).map Prod.fst := by
  cases a with
  | act a => rfl
  | lin l =>
    have h1 : j ≠ i := by omega
    cases hb : l.bias with
    | none => simp [stateDict, hb, h1]
    | some c => simp [stateDict, hb, h1]

theorem mem_of_next (a : Layer K) (ls : List (Layer K)) (i : ℕ) : ∀ e ∈ stateDict (i + 1) ls, e ∈ stateDict i (a :: ls) := by
  intro e he
  cases a with
  | act a => exact he
  | lin l => simp [stateDict, he]

/-- If loading succeeds, the file was written for a network of linear layers with one activation between two of
them, possibly followed by more activations. -/
theorem loadFrom_inv (a : K) (β : Bool) : ∀ (ws : List ℕ) (t : List (Layer K)) (ls t' : List (Layer K)) (k : ℕ),
    FreshNet a β ws t → (∀ e ∈ stateDict k ls, e.1 ∈ (stateDict k t).map Prod.fst) →
      loadFrom (stateDict k ls) k t = some t' →
      ∃ (hid : List (Lin K × Act K)) (l : Lin K) (tr : List (Act K)), ls = layersOf ⟨hid, l⟩ ++ tr.map .act ∧
        NetShape β ws hid l
  | [], t, ls, t', k, h, _, _ => by simp [FreshNet] at h
  | [_], t, ls, t', k, h, _, _ => by simp [FreshNet] at h
  | i :: o :: ws, t, ls, t', k, hf, hk, hl => by
    have hd : ∃ m rest, t = .lin m :: rest ∧ LinShape i o β m ∧
        ((ws = [] ∧ rest = []) ∨ ∃ c cs t2, ws = c :: cs ∧ rest = .act (.leaky a) :: t2 ∧ FreshNet a β (o :: ws) t2) := by
      match ws, t, hf with
      | [], [.lin m], hf => exact ⟨m, [], rfl, hf, Or.inl ⟨rfl, rfl⟩⟩
      | c :: cs, .lin m :: .act s :: t2, hf =>
        obtain ⟨h1, rfl, h2⟩ := hf
        exact ⟨m, _, rfl, h1, Or.inr ⟨c, cs, t2, rfl, rfl, h2⟩⟩
    obtain ⟨m, rest, rfl, hm, hrest⟩ := hd
    rw [loadFrom] at hl
    -- the first layer of the file
    have hls : ∃ l ls1, ls = .lin l :: ls1 := by
      match ls with
      | [] => simp [loadWeight, stateDict] at hl
      | .act s :: ls1 =>
        rw [loadWeight] at hl
        simp only [stateDict] at hl
        rw [lookup_later ls1 (k + 1) k false (by omega)] at hl
        simp at hl
      | .lin l :: ls1 => exact ⟨l, ls1, rfl⟩
    obtain ⟨l, ls1, rfl⟩ := hls
    obtain ⟨W, hW, hl⟩ := Option.bind_eq_some_iff.1 hl
    obtain ⟨b, hb, hl⟩ := Option.bind_eq_some_iff.1 hl
    obtain ⟨r, hr, hl⟩ := Option.map_eq_some_iff.1 hl
    rw [loadWeight, lookup_weight] at hW
    simp only [Option.ite_none_right_eq_some] at hW
    obtain ⟨⟨w1, w2⟩, -⟩ := hW
    obtain ⟨m1, m2, m3, m4⟩ := hm
    have hlin : LinShape i o β l := by
      refine ⟨w1.trans m1, w2.trans m2, ?_, ?_⟩
      · cases hβ : l.bias with
        | none =>
          rw [← m3]
          cases hmb : m.bias with
          | none => rfl
          | some c => rw [loadBias, lookup_bias, hβ, hmb] at hb; simp at hb
        | some c =>
          have := hk ((k, true), .vec c) (by simp [stateDict, hβ])
          rw [mem_keys_bias] at this
          rw [← m3, this]
          rfl
      · intro c hc
        have := hk ((k, true), .vec c) (by simp [stateDict, hc])
        rw [mem_keys_bias] at this
        obtain ⟨d, hd⟩ := Option.isSome_iff_exists.1 this
        rw [loadBias, lookup_bias, hc, hd] at hb
        simp only [Option.map_some, Option.ite_none_right_eq_some] at hb
        rw [hb.1, m4 d hd]
    rw [loadFrom_next] at hr
    have hk1 : ∀ e ∈ stateDict (k + 1) ls1, e.1 ∈ (stateDict (k + 1) rest).map Prod.fst := by
      intro e he
      have h1 := hk e (mem_of_next _ _ _ e he)
      have h2 := stateDict_key ls1 (k + 1) e he
      exact (mem_keys_next _ _ k e.1.1 e.1.2 (by omega)).1 h1
    rcases hrest with ⟨rfl, rfl⟩ | ⟨c, cs, t2, rfl, rfl, hf2⟩
    · have hacts : ∃ tr : List (Act K), ls1 = tr.map .act := by
        have : ∀ (ls : List (Layer K)) (k : ℕ), (∀ e, e ∉ stateDict k ls) → ∃ tr : List (Act K), ls = tr.map .act := by
          intro ls
          induction ls with
          | nil => exact fun _ _ => ⟨[], rfl⟩
          | cons x ls ih =>
            intro k h
            cases x with
            | act s =>
              obtain ⟨tr, rfl⟩ := ih (k + 1) h
              exact ⟨s :: tr, rfl⟩
            | lin l => exact absurd (by simp [stateDict]) (h ((k, false), .mat l.inF l.W))
        exact this ls1 (k + 1) fun e he => by simpa [stateDict] using hk1 e he
      obtain ⟨tr, rfl⟩ := hacts
      exact ⟨[], l, tr, rfl, hlin⟩
    · -- the second layer of the file is an activation
      have hls1 : ∃ s ls2, ls1 = .act s :: ls2 := by
        match ls1 with
        | [] =>
          rw [loadFrom] at hr
          match t2, hf2 with
          | .lin m2 :: t3, _ => simp [loadFrom, loadWeight, stateDict] at hr
          | [], hf2 => simp [FreshNet] at hf2
          | .act _ :: _, hf2 => simp [FreshNet] at hf2
        | .lin l2 :: ls2 =>
          have := hk1 ((k + 1, false), .mat l2.inF l2.W) (by simp [stateDict])
          obtain ⟨e, h1, h2⟩ := List.mem_map.1 this
          have h3 := stateDict_key t2 (k + 1 + 1) e h1
          rw [h2] at h3
          simp only at h3
          omega
        | .act s :: ls2 => exact ⟨s, ls2, rfl⟩
      obtain ⟨s, ls2, rfl⟩ := hls1
      rw [loadFrom, loadFrom_next] at hr
      obtain ⟨r2, hr2, -⟩ := Option.map_eq_some_iff.1 hr
      obtain ⟨hid, last, tr, e, hs⟩ := loadFrom_inv a β (o :: c :: cs) t2 ls2 r2 (k + 1 + 1) hf2 hk1 hr2
      refine ⟨(l, s) :: hid, last, tr, ?_, hlin, hs⟩
      rw [e]
      simp [layersOf]

/-! ### C120 -/

theorem act_slope (s : Act K) (x : K) : s.f x = Spec.leaky s.slope x := by
  cases s with
  | relu => simp [Act.f, Act.slope, Spec.leaky, Spec.relu]
  | leaky a => rfl

theorem seqEval_append : ∀ (ls ls' : List (Layer K)) (x : Vec K), seqEval (ls ++ ls') x = seqEval ls' (seqEval ls x)
  | [], _, _ => rfl
  | .lin l :: ls, ls', x => seqEval_append ls ls' (l.eval x)
  | .act a :: ls, ls', x => seqEval_append ls ls' (x.map a.f)

/-- `Sequential` on the layers of a network is the network. -/
theorem seqEval_net (net : Net K) (x : Vec K) : seqEval (layersOf net) x = net.eval x := by
  obtain ⟨hid, l⟩ := net
  induction hid generalizing x with
  | nil => rfl
  | cons p hid ih =>
    obtain ⟨m, s⟩ := p
    have e : layersOf ⟨(m, s) :: hid, l⟩ = .lin m :: .act s :: layersOf ⟨hid, l⟩ := by simp [layersOf]
    rw [e, seqEval, seqEval, ih]
    rfl

theorem withSlope_eval (a : K) (net : Net K) (h : ∀ p ∈ net.hidden, p.2.slope = a) (x : Vec K) :
    (withSlope a net).eval x = net.eval x := by
  obtain ⟨hid, l⟩ := net
  induction hid generalizing x with
  | nil => rfl
  | cons p hid ih =>
    obtain ⟨m, s⟩ := p
    have hs : s.slope = a := h (m, s) (by simp)
    have e : s.f = Act.f (.leaky a) := by
      funext y
      rw [act_slope, hs]
      rfl
    have := ih ((m.eval x).map s.f) (fun q hq => h q (List.mem_cons_of_mem _ hq))
    simp only [Net.eval, withSlope, List.map_cons, hiddenOut] at this ⊢
    rw [← e]
    exact this

theorem linsOf_net (net : Net K) : linsOf (layersOf net) = net.hidden.map Prod.fst ++ [net.last] := by
  obtain ⟨hid, l⟩ := net
  induction hid with
  | nil => rfl
  | cons p hid ih =>
    have e : layersOf ⟨p :: hid, l⟩ = .lin p.1 :: .act p.2 :: layersOf ⟨hid, l⟩ := by simp [layersOf]
    rw [e]
    change p.1 :: linsOf (layersOf ⟨hid, l⟩) = _
    rw [ih]
    rfl

theorem slopesOf_net (net : Net K) : slopesOf (layersOf net) = net.hidden.map fun p => p.2.slope := by
  obtain ⟨hid, l⟩ := net
  induction hid with
  | nil => rfl
  | cons p hid ih =>
    have e : layersOf ⟨p :: hid, l⟩ = .lin p.1 :: .act p.2 :: layersOf ⟨hid, l⟩ := by simp [layersOf]
    rw [e]
    change p.2.slope :: slopesOf (layersOf ⟨hid, l⟩) = _
    rw [ih]
    rfl

theorem linsOf_acts (ls : List (Layer K)) (tr : List (Act K)) : linsOf (ls ++ tr.map .act) = linsOf ls := by
  rw [linsOf, List.filterMap_append]
  have : ∀ tr : List (Act K), linsOf (tr.map Layer.act) = [] := by
    intro tr
    induction tr with
    | nil => rfl
    | cons s tr ih => exact ih
  exact (congrArg _ (this tr)).trans (List.append_nil _)

theorem slopesOf_acts (ls : List (Layer K)) (tr : List (Act K)) :
    slopesOf (ls ++ tr.map .act) = slopesOf ls ++ tr.map Act.slope := by
  rw [slopesOf, List.filterMap_append, List.filterMap_map]
  congr 1
  induction tr with
  | nil => rfl
  | cons s tr ih => simp

theorem lin_shape_ok {l : Lin K} (h : l.Ok) : LinShape l.inF l.W.length l.bias.isSome l := by
  refine ⟨rfl, rfl, rfl, fun b hb => ?_⟩
  have := h.2
  rw [Lin.b, hb] at this
  exact this

theorem netShape_ok (β : Bool) (l : Lin K) (hl : l.Ok) (hb : l.bias.isSome = β) : ∀ (hid : List (Lin K × Act K)) (n : ℕ),
    HidOk n hid l.inF → (∀ p ∈ hid, p.1.bias.isSome = β) →
      NetShape β (n :: (hid.map (·.1.W.length) ++ [l.W.length])) hid l
  | [], n, h, _ => by
    have h : n = l.inF := h
    subst h
    rw [← hb]
    exact lin_shape_ok hl
  | (m, s) :: hid, n, h, hβ => by
    obtain ⟨rfl, h1, h2⟩ := h
    have ih := netShape_ok β l hl hb hid _ h2 fun p hp => hβ p (by simp [hp])
    have h3 : LinShape m.inF m.W.length β m := by
      rw [← hβ (m, s) (by simp)]
      exact lin_shape_ok h1
    cases hid with
    | nil => exact ⟨h3, ih⟩
    | cons q hid => exact ⟨h3, ih⟩

theorem netShape_length (β : Bool) (l : Lin K) : ∀ (ws : List ℕ) (hid : List (Lin K × Act K)), NetShape β ws hid l →
    ws.length = hid.length + 2
  | [], _, h => by simp [NetShape] at h
  | [_], _, h => by simp [NetShape] at h
  | [_, _], [], _ => rfl
  | [_, _], _ :: _, h => by simp [NetShape] at h
  | _ :: _ :: _ :: _, [], h => by simp [NetShape] at h
  | i :: o :: c :: ws, (m, s) :: hid, h => by
    have := netShape_length β l (o :: c :: ws) hid h.2
    simp only [List.length_cons] at this ⊢
    omega

/-- The keys of the file are those of the new network. -/
theorem fresh_keys (a : K) (β : Bool) (l : Lin K) (tr : List (Act K)) : ∀ (ws : List ℕ) (t : List (Layer K))
    (hid : List (Lin K × Act K)) (k : ℕ), FreshNet a β ws t → NetShape β ws hid l →
      ∀ e ∈ stateDict k (layersOf ⟨hid, l⟩ ++ tr.map .act), e.1 ∈ (stateDict k t).map Prod.fst
  | [], t, hid, k, h, _ => by simp [FreshNet] at h
  | [_], t, hid, k, h, _ => by simp [FreshNet] at h
  | [i, o], t, hid, k, h, h' => by
    match t, hid, h, h' with
    | [.lin m], [], h, h' =>
      intro e he
      have e3 : layersOf ⟨[], l⟩ ++ tr.map .act = .lin l :: tr.map .act := rfl
      have hn : ∀ (tr : List (Act K)) k, stateDict k (tr.map (Layer.act (K := K))) = [] := by
        intro tr
        induction tr with
        | nil => exact fun _ => rfl
        | cons s tr ih => exact fun k => ih (k + 1)
      rw [e3, stateDict, hn, List.append_nil] at he
      rcases List.mem_cons.1 he with rfl | he
      · simp [stateDict]
      · cases hb : l.bias with
        | none => simp [hb] at he
        | some b =>
          simp only [hb, List.mem_singleton] at he
          subst he
          rw [mem_keys_bias, h.2.2.1, ← h'.2.2.1, hb]
          rfl
  | i :: o :: c :: ws, t, hid, k, h, h' => by
    match t, hid, h, h' with
    | .lin m :: .act s :: t, (n, s') :: hid, h, h' =>
      obtain ⟨h1, rfl, h2⟩ := h
      obtain ⟨h3, h4⟩ := h'
      intro e he
      have e3 : layersOf ⟨(n, s') :: hid, l⟩ ++ tr.map .act = .lin n :: .act s' :: (layersOf ⟨hid, l⟩ ++ tr.map .act) := by
        simp [layersOf]
      have ih := fresh_keys a β l tr (o :: c :: ws) t hid (k + 1 + 1) h2 h4
      rw [e3, stateDict] at he
      rcases List.mem_cons.1 he with rfl | he
      · simp [stateDict]
      · rcases List.mem_append.1 he with he | he
        · cases hb : n.bias with
          | none => simp [hb] at he
          | some b =>
            simp only [hb, List.mem_singleton] at he
            subst he
            rw [mem_keys_bias, h1.2.2.1, ← h3.2.2.1, hb]
            rfl
        · have h5 := ih e he
          have h6 := stateDict_key _ (k + 1 + 1) e he
          exact (mem_keys_next _ _ k e.1.1 e.1.2 (by omega)).2 h5

theorem loadNet_eq {ls : List (Layer K)} {f : NetFile K} (h : saveNet ls = some f) (init ls' : _)
    (hl : loadNet init f = some ls') : ∃ β a t, f.bias = some β ∧ (∀ s ∈ slopesOf ls, s = a) ∧
      setupRelu a β f.widths init = some t ∧ loadStateDict (stateDict 0 ls) t = some ls' := by
  obtain ⟨s, hs, rfl⟩ := Option.map_eq_some_iff.1 h
  obtain ⟨-, h2, h3, h4, h5⟩ := (C54_structure_exact ls s).1 hs
  obtain ⟨β, hβ, hl⟩ := Option.bind_eq_some_iff.1 hl
  obtain ⟨t, ht, hl⟩ := Option.bind_eq_some_iff.1 hl
  simp only at hβ ht hl
  cases hsl : s.slope with
  | some a =>
    rw [hsl] at ht h4
    exact ⟨β, a, t, hβ, fun x hx => (Option.some.injEq _ _ ▸ h4 x hx).symm, ht, hl⟩
  | none =>
    rw [hsl] at ht h4
    simp only at ht
    split at ht
    · exact ⟨β, 0, t, hβ, fun x hx => by have := h4 x hx; simp at this, ht, hl⟩
    · cases ht

/-- C120. A file of a network with linear layers of matching shapes, all with or all without bias, and one
activation (of the same slope) between two of them can be loaded, whatever the random parameters of the new network
were: the loaded network has the same linear layers and is the same function. -/
theorem C120_round_trip (net : Net K) {n : ℕ} (hn : net.Ok n) (β : Bool) (a : K)
    (hh : ∀ p ∈ net.hidden, p.1.bias.isSome = β ∧ p.2.slope = a) (hl : net.last.bias.isSome = β) :
    ∃ f, saveNet (layersOf net) = some f ∧ ∀ init : Vec K, numWidths β f.widths ≤ init.length →
      ∃ net', loadNet init f = some (layersOf net') ∧ net'.hidden.map Prod.fst = net.hidden.map Prod.fst ∧
        net'.last = net.last ∧ ∀ x, net'.eval x = net.eval x := by
  obtain ⟨hid, l⟩ := net
  simp only at hh hl
  have hlins := linsOf_net ⟨hid, l⟩
  have hsl := slopesOf_net ⟨hid, l⟩
  have hfl : ∀ m ∈ linsOf (layersOf ⟨hid, l⟩), m.bias.isSome = β := by
    intro m hm
    rw [hlins] at hm
    simp only [List.mem_append, List.mem_map, List.mem_singleton] at hm
    rcases hm with ⟨p, hp, rfl⟩ | rfl
    · exact (hh p hp).1
    · exact hl
  have hshape := netShape_ok β l hn.2 hl hid n hn.1 fun p hp => (hh p hp).1
  have hws : ((linsOf (layersOf ⟨hid, l⟩)).map Lin.inF).take 1 ++ (linsOf (layersOf ⟨hid, l⟩)).map (·.W.length) =
      n :: (hid.map (·.1.W.length) ++ [l.W.length]) := by
    rw [hlins]
    cases hid with
    | nil =>
      have : n = l.inF := hn.1
      simp [this]
    | cons p hid =>
      have : p.1.inF = n := hn.1.1
      simp [this]
  have hst : extractStructure (layersOf ⟨hid, l⟩) =
      some ⟨n :: (hid.map (·.1.W.length) ++ [l.W.length]), (slopesOf (layersOf ⟨hid, l⟩)).head?, some β⟩ := by
    rw [C54_structure_exact]
    refine ⟨hws.symm, rfl, ?_, ?_, fun m hm => by rw [hfl m hm]⟩
    · cases hid with
      | nil => simp [hlins, ← hl]
      | cons p hid => simp [hlins, ← (hh p (by simp)).1]
    · intro s hs
      rw [hsl] at hs ⊢
      cases hid with
      | nil => simp at hs
      | cons p hid =>
        obtain ⟨q, hq, rfl⟩ := List.mem_map.1 hs
        simp [(hh p (by simp)).2, (hh q hq).2]
  refine ⟨_, by rw [saveNet, hst]; rfl, fun init hi => ?_⟩
  simp only at hi
  obtain ⟨t, ht, hf⟩ := setup_freshNet (if hid = [] then 0 else a) β _ init (by simp) hi
  refine ⟨withSlope (if hid = [] then 0 else a) ⟨hid, l⟩, ?_, ?_, rfl, ?_⟩
  · have hkeys := fresh_keys _ β l [] _ t hid 0 hf hshape
    have hload := loadFrom_net _ β l [] _ t hid 0 hf hshape
    simp only [List.map_nil, List.append_nil] at hkeys hload
    have : loadStateDict (stateDict 0 (layersOf ⟨hid, l⟩)) t = some (layersOf (withSlope (if hid = [] then 0 else a) ⟨hid, l⟩)) := by
      rw [loadStateDict, if_pos hkeys, hload]
    rw [loadNet]
    simp only [Option.bind_some]
    rw [hsl]
    cases hid with
    | nil =>
      simp only [List.map_nil, List.head?_nil] at ht ⊢
      rw [if_pos (by simp)]
      simp only [if_true] at ht this ⊢
      rw [ht]
      exact this
    | cons p hid =>
      simp only [List.map_cons, List.head?_cons, (hh p (by simp)).2]
      simp only [reduceCtorEq, if_false, List.map_cons] at ht this ⊢
      rw [ht]
      exact this
  · simp [withSlope]
  · intro x
    refine withSlope_eval _ _ (fun p hp => ?_) x
    rw [if_neg (by rintro rfl; simp at hp)]
    exact (hh p hp).2

/-- C120. Whatever network a file was written for: if it can be loaded, the linear layers are those of the network
that was saved, and the saved network is the loaded one followed by some activations. -/
theorem C120_loaded {ls ls' : List (Layer K)} {f : NetFile K} (h : saveNet ls = some f) (init : Vec K)
    (hi : ∀ β, f.bias = some β → numWidths β f.widths ≤ init.length) (hl : loadNet init f = some ls') :
    ∃ (net net' : Net K) (tr : List (Act K)), ls = layersOf net ++ tr.map .act ∧ ls' = layersOf net' ∧
      linsOf ls' = linsOf ls ∧ ∀ x, seqEval ls x = seqEval (tr.map .act) (seqEval ls' x) := by
  obtain ⟨β, a, t, h1, h2, h3, h4⟩ := loadNet_eq h init ls' hl
  have hw : 2 ≤ f.widths.length := by
    match hf : f.widths, h3 with
    | [], h3 => simp [setupRelu] at h3
    | [_], h3 => simp [setupRelu] at h3
    | _ :: _ :: _, _ => simp
  obtain ⟨t0, ht0, hf⟩ := setup_freshNet a β f.widths init hw (hi β h1)
  rw [h3, Option.some.injEq] at ht0
  subst ht0
  rw [loadStateDict] at h4
  split at h4
  · rename_i hk
    obtain ⟨hid, l, tr, rfl, hs⟩ := loadFrom_inv a β f.widths t ls ls' 0 hf hk h4
    rw [loadFrom_net a β l (tr.map .act) f.widths t hid 0 hf hs, Option.some.injEq] at h4
    subst h4
    refine ⟨⟨hid, l⟩, withSlope a ⟨hid, l⟩, tr, rfl, rfl, ?_, fun x => ?_⟩
    · rw [linsOf_acts, linsOf_net, linsOf_net]
      simp [withSlope]
    · rw [seqEval_append, seqEval_net, seqEval_net, withSlope_eval]
      intro p hp
      refine h2 _ ?_
      rw [slopesOf_acts, slopesOf_net]
      simp only [List.mem_append, List.mem_map]
      exact Or.inl ⟨p, hp, rfl⟩
  · cases h4

/-- C120. Activations after the last linear layer are lost: `Sequential(Linear, ReLU)` is saved and loaded without
error and the loaded network is another function. -/
theorem C120_output_activation_counterexample :
    ∃ f, saveNet [.lin ⟨1, [[(1 : ℚ)]], none⟩, .act .relu] = some f ∧ ∀ r : ℚ,
      loadNet [r] f = some [.lin ⟨1, [[1]], none⟩] ∧
      seqEval [.lin ⟨1, [[(1 : ℚ)]], none⟩, .act .relu] [-1] = [0] ∧
      seqEval [.lin ⟨1, [[(1 : ℚ)]], none⟩] [-1] = [-1] := by
  refine ⟨_, rfl, fun r => ⟨rfl, ?_, ?_⟩⟩ <;> decide +kernel

/-- C120. Two linear layers in a row are saved without error; the file cannot be loaded. -/
theorem C120_adjacent_raises (pre post : List (Layer K)) (l m : Lin K) {f : NetFile K}
    (h : saveNet (pre ++ .lin l :: .lin m :: post) = some f) (init : Vec K)
    (hi : ∀ β, f.bias = some β → numWidths β f.widths ≤ init.length) : loadNet init f = none := by
  by_contra hne
  obtain ⟨ls', hl⟩ := Option.ne_none_iff_exists'.1 hne
  obtain ⟨net, -, tr, e, -⟩ := C120_loaded h init hi hl
  obtain ⟨hid, last⟩ := net
  clear hl hne h hi
  induction hid generalizing pre with
  | nil =>
    cases pre with
    | nil =>
      cases tr with
      | nil => simp [layersOf] at e
      | cons s tr => simp [layersOf] at e
    | cons x pre =>
      have e' : pre ++ .lin l :: .lin m :: post = tr.map .act := by simpa [layersOf] using (List.cons.inj e).2
      have : Layer.lin l ∈ tr.map (Layer.act (K := K)) := by rw [← e']; simp
      simp at this
  | cons p hid ih =>
    have e2 : layersOf ⟨p :: hid, last⟩ ++ tr.map .act = .lin p.1 :: .act p.2 :: (layersOf ⟨hid, last⟩ ++ tr.map .act) := by
      simp [layersOf]
    rw [e2] at e
    match pre, e with
    | [], e => simp at e
    | [x], e => simp at e
    | x :: y :: pre, e => exact ih pre (List.cons.inj (List.cons.inj e).2).2

/-- C120. The Lyapunov function that is loaded from a file of `save_lyapunov_model` is the one that was saved. -/
theorem C120_lyapunov (net : Net K) {n : ℕ} (hn : net.Ok n) (β : Bool) (a : K)
    (hh : ∀ p ∈ net.hidden, p.1.bias.isSome = β ∧ p.2.slope = a) (hl : net.last.bias.isSome = β) (lam posEps derEps : K)
    (et : EpsType) (R : ROpt K) (hR : ∀ S, R ≠ .spd S) :
    ∃ f, saveLyapunov (layersOf net) lam posEps derEps et R = some f ∧ f.posEps = posEps ∧ f.derEps = derEps ∧
      f.epsType = et ∧ ∀ init : Vec K, numWidths β f.net.widths ≤ init.length →
      ∃ net' lam' R', loadLyapunov init f = some (layersOf net', lam', R') ∧
        ∀ xe x, lyapV net' R' lam' xe x = lyapV net R.R lam xe x := by
  obtain ⟨f, hf, hload⟩ := C120_round_trip net hn β a hh hl
  obtain ⟨p, hp⟩ : ∃ p, R.extractParams = some p := by
    cases R with
    | spd S => exact absurd rfl (hR S)
    | fixed R => exact ⟨_, rfl⟩
    | svd S => exact ⟨_, rfl⟩
    | free m n R => exact ⟨_, rfl⟩
  refine ⟨⟨f, lam, posEps, derEps, et, R.R, R.fixedR, p⟩, by simp [saveLyapunov, hf, hp], rfl, rfl, rfl, fun init hi => ?_⟩
  obtain ⟨net', h1, -, -, h2⟩ := hload init hi
  refine ⟨net', lam, R.R, by simp [loadLyapunov, h1], fun xe x => ?_⟩
  simp only [lyapV, Net.val, h2]

/-- C120. With `SearchRwithSPDOptions`, `save_lyapunov_model` always raises. -/
theorem C120_spd_raises (ls : List (Layer K)) (lam posEps derEps : K) (et : EpsType) (S : SpdR K) :
    saveLyapunov ls lam posEps derEps et (.spd S) = none := by
  simp [saveLyapunov, ROpt.extractParams]

/-- C120. What a Lyapunov file says about `R`: the matrix itself, whether it is fixed, and for an optimised one the parameters
it is made of: the sizes, and for the singular value form also the factors and the offsets. -/
theorem C120_options (ls : List (Layer K)) (lam posEps derEps : K) (et : EpsType) {f : LyapFile K} :
    (∀ R0, saveLyapunov ls lam posEps derEps et (.fixed R0) = some f →
      f.R = R0 ∧ f.fixedR = true ∧ f.params = ⟨none, none, none, none⟩) ∧
    (∀ m n R0, saveLyapunov ls lam posEps derEps et (.free m n R0) = some f →
      f.R = R0 ∧ f.fixedR = false ∧ f.params = ⟨some (m, n), none, none, none⟩) ∧
    (∀ S : SvdR K, saveLyapunov ls lam posEps derEps et (.svd S) = some f →
      f.R = S.R ∧ f.fixedR = false ∧ f.params = ⟨some (S.m, S.n), some S.U, some S.V, some S.a⟩) := by
  refine ⟨fun R0 h => ?_, fun m n R0 h => ?_, fun S h => ?_⟩ <;>
  · obtain ⟨g, -, h⟩ := Option.bind_eq_some_iff.1 h
    simp only [ROpt.extractParams, Option.map_some] at h
    obtain rfl := Option.some.inj h
    exact ⟨rfl, rfl, rfl⟩

/-- C120. Controller and forward model files: the loaded network is the same function, the other entries are as
saved. -/
theorem C120_controller (net : Net K) {n : ℕ} (hn : net.Ok n) (β : Bool) (a : K)
    (hh : ∀ p ∈ net.hidden, p.1.bias.isSome = β ∧ p.2.slope = a) (hl : net.last.bias.isSome = β) (xLo xUp uLo uUp : Vec K)
    (qEq uEq : Vec K) (dt : K) :
    ∃ f g, saveController (layersOf net) xLo xUp uLo uUp = some f ∧ (f.xLo, f.xUp, f.uLo, f.uUp) = (xLo, xUp, uLo, uUp) ∧
      saveForward (layersOf net) qEq uEq dt = some g ∧ (g.qEq, g.uEq, g.dt) = (qEq, uEq, dt) ∧ f.net = g.net ∧
      ∀ init : Vec K, numWidths β f.net.widths ≤ init.length →
        ∃ net', loadNet init f.net = some (layersOf net') ∧ ∀ x, net'.eval x = net.eval x := by
  obtain ⟨f, hf, hload⟩ := C120_round_trip net hn β a hh hl
  refine ⟨⟨f, xLo, xUp, uLo, uUp⟩, ⟨f, qEq, uEq, dt⟩, by simp [saveController, hf], rfl, by simp [saveForward, hf], rfl,
    rfl, fun init hi => ?_⟩
  obtain ⟨net', h1, -, -, h2⟩ := hload init hi
  exact ⟨net', h1, h2⟩

/-- Two inputs, two hidden units with bias and slope 1/10, one output. -/
def exFileNet : Net ℚ := ⟨[(⟨2, [[1, 2], [3, 4]], some [5, 6]⟩, .leaky (1 / 10))], ⟨2, [[7, 8]], some [9]⟩⟩

/-- It meets the hypotheses of `C120_round_trip`; the file is loaded over other parameters. -/
example : exFileNet.Ok 2 ∧ (∀ p ∈ exFileNet.hidden, p.1.bias.isSome = true ∧ p.2.slope = 1 / 10) ∧
    exFileNet.last.bias.isSome = true ∧ numWidths true [2, 2, 1] = 9 ∧
    (saveNet (layersOf exFileNet)).bind (loadNet [0, 0, 0, 0, 0, 0, 0, 0, 0]) = some (layersOf exFileNet) := by
  refine ⟨?_, ?_, rfl, rfl, rfl⟩
  · simp [exFileNet, Net.Ok, HidOk, Lin.Ok, HasCols, Lin.b]
  · simp [exFileNet, Act.slope]

/-- Two linear layers in a row, as in `C120_adjacent_raises`. -/
example : ∃ f, saveNet [.lin ⟨1, [[(1 : ℚ)]], none⟩, .lin ⟨1, [[1]], none⟩, .act .relu, .lin ⟨1, [[1]], none⟩] = some f ∧
    f.widths = [1, 1, 1, 1] ∧ loadNet [0, 0, 0] f = none := ⟨_, rfl, rfl, rfl⟩

end NNL.Props
