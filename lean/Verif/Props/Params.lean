import Verif.Model.Params
import Verif.Lemmas.Mic

/-!
# C54: packing of network parameters
-/

set_option linter.unusedSectionVars false

namespace NNL.Props

open NNL NNL.Spec NNL.Model

variable {K : Type*} [Field K] [LinearOrder K] [IsStrictOrderedRing K]

/-- Number of parameters of a layer and of a network. -/
def numLin (l : Lin K) : ℕ := l.inF * l.W.length + if l.bias.isSome then l.W.length else 0

def numParams : List (Layer K) → ℕ
  | [] => 0
  | .act _ :: ls => numParams ls
  | .lin l :: ls => numLin l + numParams ls

/-- Shapes of torch layers: the weight is `out × in`, the bias (if any) has `out` entries. -/
def LayersOk : List (Layer K) → Prop
  | [] => True
  | .act _ :: ls => LayersOk ls
  | .lin l :: ls => HasCols l.W l.inF ∧ (∀ b, l.bias = some b → b.length = l.W.length) ∧ LayersOk ls

/-- Same layers except for the values of the parameters. -/
def SameShape : List (Layer K) → List (Layer K) → Prop
  | [], [] => True
  | .act a :: ls, .act a' :: ls' => a = a' ∧ SameShape ls ls'
  | .lin l :: ls, .lin l' :: ls' => l.inF = l'.inF ∧ l.W.length = l'.W.length ∧
      l.bias.isSome = l'.bias.isSome ∧ SameShape ls ls'
  | _, _ => False

theorem flatten_reshape : ∀ (r c : ℕ) (v : Vec K), v.length = r * c →
    ((List.range r).map fun i => (v.drop (i * c)).take c).flatten = v
  | 0, c, v, h => by
    have : v = [] := by simpa using h
    simp [this]
  | r + 1, c, v, h => by
    rw [List.range_succ_eq_map, List.map_cons, List.flatten_cons, List.map_map]
    have e : ((fun i => (v.drop (i * c)).take c) ∘ Nat.succ) = fun i => ((v.drop c).drop (i * c)).take c := by
      funext i
      simp only [Function.comp, List.drop_drop]
      congr 2
      rw [Nat.succ_mul]
      omega
    rw [e, flatten_reshape r c (v.drop c) (by rw [List.length_drop, h, Nat.succ_mul]; omega)]
    simp

theorem reshape_flatten (W : Mat K) (c : ℕ) (h : HasCols W c) :
    (List.range W.length).map (fun i => (W.flatten.drop (i * c)).take c) = W := by
  induction W with
  | nil => rfl
  | cons r W ih =>
    have hr : r.length = c := h r (by simp)
    have hW : HasCols W c := fun x hx => h x (by simp [hx])
    rw [List.length_cons, List.range_succ_eq_map, List.map_cons, List.map_map]
    have e : ((fun i => (((r :: W).flatten).drop (i * c)).take c) ∘ Nat.succ) =
        fun i => (W.flatten.drop (i * c)).take c := by
      funext i
      simp only [Function.comp, List.flatten_cons]
      rw [Nat.succ_mul, Nat.add_comm, ← List.drop_drop, ← hr, List.drop_left]
    rw [e, ih hW]
    simp [← hr]

theorem length_flatten_cols (W : Mat K) (c : ℕ) (h : HasCols W c) : W.flatten.length = c * W.length := by
  induction W with
  | nil => simp
  | cons r W ih =>
    rw [List.flatten_cons, List.length_append, ih fun x hx => h x (by simp [hx]), h r (by simp), List.length_cons]
    ring

theorem reshape_some {r c : ℕ} {v : Vec K} {W : Mat K} (h : reshape r c v = some W) :
    v.length = r * c ∧ W.flatten = v ∧ W.length = r ∧ HasCols W c := by
  unfold reshape at h
  split at h
  · rename_i hl
    simp only [Option.some.injEq] at h
    subst h
    refine ⟨hl, flatten_reshape r c v hl, by simp, fun x hx => ?_⟩
    simp only [List.mem_map, List.mem_range] at hx
    obtain ⟨i, hi, rfl⟩ := hx
    rw [List.length_take, List.length_drop, hl]
    have : i * c + c ≤ r * c := by
      calc i * c + c = (i + 1) * c := by ring
        _ ≤ r * c := Nat.mul_le_mul_right c hi
    omega
  · cases h

/-- One layer. -/
theorem updateLin_some {l l' : Lin K} {params rest : Vec K} (h : updateLin l params = some (l', rest)) :
    rest = params.drop (numLin l) ∧ extractLin l' = params.take (numLin l) ∧ l'.inF = l.inF ∧
      l'.W.length = l.W.length ∧ l'.bias.isSome = l.bias.isSome ∧ HasCols l'.W l'.inF ∧
      l.inF * l.W.length ≤ params.length := by
  unfold updateLin at h
  cases hr : reshape l.W.length l.inF (params.take (l.inF * l.W.length)) with
  | none => rw [hr] at h; cases h
  | some W =>
    rw [hr] at h
    obtain ⟨h1, h2, h3, h4⟩ := reshape_some hr
    have h5 : l.inF * l.W.length ≤ params.length := by
      rw [List.length_take, Nat.mul_comm l.W.length] at h1
      omega
    cases hb : l.bias with
    | none =>
      simp only [hb, Option.bind_eq_bind, Option.bind_some, Option.some.injEq, Prod.mk.injEq] at h
      obtain ⟨rfl, rfl⟩ := h
      simp [numLin, hb, extractLin, h2, h3, h4, h5]
    | some b =>
      simp only [hb, Option.bind_eq_bind, Option.bind_some, Option.some.injEq, Prod.mk.injEq] at h
      obtain ⟨rfl, rfl⟩ := h
      refine ⟨?_, ?_, rfl, h3, rfl, h4, h5⟩
      · simp [numLin, hb, List.drop_drop]
      · simp [numLin, hb, extractLin, h2, List.take_add]

/-- C54. What `update_relu_params` stores is what `extract_relu_parameters` returns: the given vector, up to the
number of parameters. The layers keep their shapes. -/
theorem C54_extract_update : ∀ (ls : List (Layer K)) (params : Vec K) (ls' : List (Layer K)),
    updateParams ls params = some ls' →
      extractParams ls' = params.take (numParams ls) ∧ SameShape ls ls'
  | [], params, ls', h => by
    simp only [updateParams, Option.some.injEq] at h
    subst h
    simp [extractParams, numParams, SameShape]
  | .act a :: ls, params, ls', h => by
    rw [updateParams] at h
    cases hr : updateParams ls params with
    | none => rw [hr] at h; cases h
    | some r =>
      rw [hr] at h
      replace h : some (.act a :: r) = some ls' := h
      simp only [Option.some.injEq] at h
      subst h
      obtain ⟨i1, i2⟩ := C54_extract_update ls params r hr
      exact ⟨i1, rfl, i2⟩
  | .lin l :: ls, params, ls', h => by
    rw [updateParams] at h
    cases hq : updateLin l params with
    | none => rw [hq] at h; cases h
    | some q =>
      obtain ⟨l', rest⟩ := q
      cases hr : updateParams ls rest with
      | none => rw [hq] at h; simp [hr] at h
      | some r =>
        rw [hq] at h
        simp only [Option.bind_eq_bind, Option.bind_some, hr, Option.some.injEq] at h
        subst h
        obtain ⟨i1, i2⟩ := C54_extract_update ls rest r hr
        obtain ⟨rfl, g2, g3, g4, g5, -⟩ := updateLin_some hq
        refine ⟨?_, g3.symm, g4.symm, g5.symm, i2⟩
        rw [extractParams, g2, i1, numParams, List.take_add]

theorem updateLin_isSome {l : Lin K} {params : Vec K} (h : l.inF * l.W.length ≤ params.length) :
    (updateLin l params).isSome := by
  unfold updateLin
  have : (reshape l.W.length l.inF (params.take (l.inF * l.W.length))).isSome := by
    rw [reshape, if_pos]
    · rfl
    · rw [List.length_take, Nat.mul_comm l.W.length]
      omega
  obtain ⟨W, hW⟩ := Option.isSome_iff_exists.1 this
  rw [hW]
  cases l.bias <;> rfl

/-- C54. A vector with all parameters is accepted, and is returned exactly by `extract_relu_parameters`. -/
theorem C54_roundtrip (ls : List (Layer K)) (params : Vec K) (h : params.length = numParams ls) :
    ∃ ls', updateParams ls params = some ls' ∧ extractParams ls' = params ∧ SameShape ls ls' ∧ LayersOk ls' := by
  induction ls generalizing params with
  | nil =>
    have : params = [] := by simpa [numParams] using h
    exact ⟨[], rfl, by simp [extractParams, this], trivial, trivial⟩
  | cons a ls ih =>
    cases a with
    | act a =>
      obtain ⟨r, h1, h2, h3, h4⟩ := ih params h
      exact ⟨.act a :: r, by simp [updateParams, h1], h2, ⟨rfl, h3⟩, h4⟩
    | lin l =>
      rw [numParams] at h
      have hle : l.inF * l.W.length ≤ params.length := by rw [h, numLin]; omega
      obtain ⟨⟨l', rest⟩, hq⟩ := Option.isSome_iff_exists.1 (updateLin_isSome hle)
      obtain ⟨rfl, g2, g3, g4, g5, g6, -⟩ := updateLin_some hq
      obtain ⟨r, h1, h2, h3, h4⟩ := ih (params.drop (numLin l)) (by rw [List.length_drop]; omega)
      refine ⟨.lin l' :: r, by simp [updateParams, hq, h1], ?_, ⟨g3.symm, g4.symm, g5.symm, h3⟩, g6, ?_, h4⟩
      · rw [extractParams, g2, h2, List.take_append_drop]
      · intro b hb
        have hl := congrArg List.length g2
        rw [extractLin, List.length_append, length_flatten_cols _ _ g6, hb, List.length_take, g3, g4] at hl
        have : l.bias.isSome = true := by rw [← g5, hb]; rfl
        simp only [numLin, this, if_true, Option.getD_some] at hl h
        rw [g4]
        omega

/-- C54. The other way round: storing the extracted parameters of a network of the same shape gives that
network; in particular storing a network's own parameters changes nothing. -/
theorem C54_update_extract : ∀ (ls ls' : List (Layer K)), SameShape ls ls' → LayersOk ls' → ∀ extra : Vec K,
    updateParams ls (extractParams ls' ++ extra) = some ls'
  | [], [], _, _, _ => rfl
  | .act a :: ls, .act a' :: ls', h, ok, extra => by
    obtain ⟨rfl, h⟩ := h
    have := C54_update_extract ls ls' h ok extra
    simp [updateParams, extractParams, this]
  | .lin l :: ls, .lin l' :: ls', h, ok, extra => by
    obtain ⟨h1, h2, h3, h⟩ := h
    obtain ⟨k1, k2, ok⟩ := ok
    have := C54_update_extract ls ls' h ok extra
    have hl : updateLin l (extractLin l' ++ (extractParams ls' ++ extra)) =
        some (l', extractParams ls' ++ extra) := by
      have lf := length_flatten_cols l'.W l'.inF k1
      unfold updateLin
      rw [h1, h2, extractLin, List.append_assoc, List.take_left' (by rw [lf]), List.drop_left' (by rw [lf]), reshape,
        if_pos (by rw [lf, Nat.mul_comm]), reshape_flatten _ _ k1]
      obtain ⟨i, W, b'⟩ := l'
      cases hb : l.bias with
      | none =>
        cases b' with
        | none => simp
        | some b' => rw [hb] at h3; cases h3
      | some b =>
        cases b' with
        | none => rw [hb] at h3; cases h3
        | some b' =>
          have := k2 b' rfl
          simp only at this
          simp [← this]
    rw [extractParams, List.append_assoc, updateParams, hl]
    simp [this]
  | [], .act _ :: _, h, _, _ => h.elim
  | [], .lin _ :: _, h, _, _ => h.elim
  | .act _ :: _, [], h, _, _ => h.elim
  | .lin _ :: _, [], h, _, _ => h.elim
  | .act _ :: _, .lin _ :: _, h, _, _ => h.elim
  | .lin _ :: _, .act _ :: _, h, _, _ => h.elim

/-- A vector that is too short is not always rejected: here the bias gets one entry instead of two. -/
theorem C54_short_vector : updateParams [.lin ⟨1, [[(0 : ℚ)], [0]], some [0, 0]⟩] [1, 2, 3] =
    some [.lin ⟨1, [[1], [2]], some [3]⟩] := by
  rfl

/-! ### setup_relu -/

/-- The number of parameters for the given widths. -/
def numWidths (bias : Bool) : List ℕ → ℕ
  | [] => 0
  | [_] => 0
  | a :: b :: ws => a * b + (if bias then b else 0) + numWidths bias (b :: ws)

theorem setupLin_some {a b : ℕ} {bias : Bool} {params rest : Vec K} {l : Lin K}
    (h : setupLin a b bias params = some (l, rest)) :
    rest = params.drop (a * b + if bias then b else 0) ∧ extractLin l = params.take (a * b + if bias then b else 0) ∧
      l.inF = a ∧ l.W.length = b ∧ l.bias.isSome = bias ∧ HasCols l.W a := by
  unfold setupLin at h
  cases hr : reshape b a (params.take (a * b)) with
  | none => rw [hr] at h; cases h
  | some W =>
    rw [hr] at h
    obtain ⟨h1, h2, h3, h4⟩ := reshape_some hr
    cases bias with
    | false =>
      simp only [Option.bind_eq_bind, Option.bind_some, Bool.false_eq_true, if_false, Option.some.injEq,
        Prod.mk.injEq] at h
      obtain ⟨rfl, rfl⟩ := h
      simp [extractLin, h2, h3, h4]
    | true =>
      simp only [Option.bind_eq_bind, Option.bind_some, if_true, Option.some.injEq, Prod.mk.injEq] at h
      obtain ⟨rfl, rfl⟩ := h
      refine ⟨?_, ?_, rfl, h3, rfl, h4⟩
      · simp [List.drop_drop]
      · simp [extractLin, h2, List.take_add]

/-- C54. The parameters given to `setup_relu` are those of the network. -/
theorem C54_setup (slope : K) (bias : Bool) : ∀ (ws : List ℕ) (params : Vec K) (ls : List (Layer K)),
    setupRelu slope bias ws params = some ls → extractParams ls = params.take (numWidths bias ws)
  | [], params, ls, h => by cases h
  | [_], params, ls, h => by cases h
  | [a, b], params, ls, h => by
    rw [setupRelu] at h
    cases hq : setupLin a b bias params with
    | none => rw [hq] at h; cases h
    | some q =>
      obtain ⟨l, rest⟩ := q
      rw [hq] at h
      replace h : some [.lin l] = some ls := h
      simp only [Option.some.injEq] at h
      subst h
      obtain ⟨-, g2, -⟩ := setupLin_some hq
      simp [extractParams, g2, numWidths]
  | a :: b :: c :: ws, params, ls, h => by
    rw [setupRelu] at h
    cases hq : setupLin a b bias params with
    | none => rw [hq] at h; cases h
    | some q =>
      obtain ⟨l, rest⟩ := q
      cases hr : setupRelu slope bias (b :: c :: ws) rest with
      | none => rw [hq] at h; simp [hr] at h
      | some r =>
        rw [hq] at h
        simp only [Option.bind_eq_bind, Option.bind_some, hr, Option.some.injEq] at h
        subst h
        obtain ⟨rfl, g2, -⟩ := setupLin_some hq
        have ih := C54_setup slope bias (b :: c :: ws) _ r hr
        have e : numWidths bias (a :: b :: c :: ws) =
          (a * b + if bias then b else 0) + numWidths bias (b :: c :: ws) := rfl
        rw [extractParams, extractParams, g2, ih, e, List.take_add (i := a * b + if bias then b else 0)]

/-- The fold of `extract_relu_structure` over a network of `setup_relu`. -/
theorem structure_fold (slope : K) (bias : Bool) : ∀ (ws : List ℕ) (params : Vec K) (ls : List (Layer K)),
    setupRelu slope bias ws params = some ls → ∀ s : Structure K, (s.bias = none ∨ s.bias = some bias) →
      (s.slope = none ∨ s.slope = some slope) → (s.widths = [] ∨ s.widths.getLast? = ws.head?) →
      ls.foldlM structureStep s = some ⟨(if s.widths = [] then ws else s.widths ++ ws.tail),
        (if ws.length = 2 then s.slope else some slope), some bias⟩
  | [], params, ls, h => by cases h
  | [_], params, ls, h => by cases h
  | [a, b], params, ls, h => by
    rw [setupRelu] at h
    cases hq : setupLin a b bias params with
    | none => rw [hq] at h; cases h
    | some q =>
      obtain ⟨l, rest⟩ := q
      rw [hq] at h
      replace h : some [.lin l] = some ls := h
      simp only [Option.some.injEq] at h
      subst h
      obtain ⟨-, -, g3, g4, g5, -⟩ := setupLin_some hq
      intro s hb hsl hw
      simp only [List.foldlM_cons, List.foldlM_nil, structureStep, g3, g4, g5, if_pos hb, Option.bind_eq_bind,
        Option.bind_some, List.length_eq_zero_iff]
      by_cases he : s.widths = []
      · simp [he]
      · simp [he]
  | a :: b :: c :: ws, params, ls, h => by
    rw [setupRelu] at h
    cases hq : setupLin a b bias params with
    | none => rw [hq] at h; cases h
    | some q =>
      obtain ⟨l, rest⟩ := q
      cases hr : setupRelu slope bias (b :: c :: ws) rest with
      | none => rw [hq] at h; simp [hr] at h
      | some r =>
        rw [hq] at h
        simp only [Option.bind_eq_bind, Option.bind_some, hr, Option.some.injEq] at h
        subst h
        obtain ⟨rfl, -, g3, g4, g5, -⟩ := setupLin_some hq
        have ih := structure_fold slope bias (b :: c :: ws) _ r hr
        intro s hb hsl hw
        have e1 : structureStep s (.lin l) = some ⟨(if s.widths = [] then s.widths ++ [a, b] else s.widths ++ [b]),
            s.slope, some bias⟩ := by
          simp only [structureStep, g3, g4, g5, if_pos hb, List.length_eq_zero_iff]
        have e2 : ∀ t : Structure K, (t.slope = none ∨ t.slope = some slope) →
            structureStep t (.act (.leaky slope)) = some { t with slope := some slope } := by
          intro t ht
          obtain ⟨tw, ts, tb⟩ := t
          rcases ht with ht | ht
          · simp only at ht
            subst ht
            rfl
          · simp only at ht
            subst ht
            simp [structureStep]
        rw [List.foldlM_cons, e1]
        simp only [Option.bind_eq_bind, Option.bind_some]
        rw [List.foldlM_cons,
          e2 ⟨if s.widths = [] then s.widths ++ [a, b] else s.widths ++ [b], s.slope, some bias⟩ hsl]
        simp only [Option.bind_eq_bind, Option.bind_some]
        rw [ih _ (Or.inr rfl) (Or.inr rfl) (Or.inr (by
          simp only
          split <;> simp))]
        by_cases he : s.widths = []
        · simp [he]
        · simp [he]

/-- C54. `extract_relu_structure` recovers the arguments of `setup_relu` (there is no slope to recover if there is
only one linear layer). -/
theorem C54_structure (slope : K) (bias : Bool) (ws : List ℕ) (params : Vec K) (ls : List (Layer K))
    (h : setupRelu slope bias ws params = some ls) :
    extractStructure ls = some ⟨ws, if ws.length = 2 then none else some slope, some bias⟩ := by
  rw [extractStructure, structure_fold slope bias ws params ls h _ (Or.inl rfl) (Or.inl rfl) (Or.inl rfl)]
  simp

/-- An example: widths 2, 2, 1 with bias have 9 parameters. -/
example : ∃ ls : List (Layer ℚ), setupRelu (1/10) true [2, 2, 1] [1, 2, 3, 4, 5, 6, 7, 8, 9] = some ls ∧
    numParams ls = 9 ∧ extractParams ls = [1, 2, 3, 4, 5, 6, 7, 8, 9] :=
  ⟨[.lin ⟨2, [[1, 2], [3, 4]], some [5, 6]⟩, .act (.leaky (1/10)), .lin ⟨2, [[7, 8]], some [9]⟩], rfl, rfl, rfl⟩

end NNL.Props
