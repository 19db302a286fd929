import Verif.Model.NetEnc
import Verif.Lemmas.Bin
import Verif.Props.ScalarEnc

/-!
# What the rows of a neuron, a layer and a network mean
-/

set_option linter.unusedSectionVars false

namespace NNL.Model

open NNL NNL.Spec

variable {K : Type*} [Field K] [LinearOrder K] [IsStrictOrderedRing K]

/-- All rows hold. -/
def Cons.Holds (c : Cons K) (x s z : Vec K) : Prop :=
  (∀ r ∈ c.ineq, r.val x s z ≤ r.rhs) ∧ (∀ r ∈ c.eq, r.val x s z = r.rhs)

/-- The meaning of the constraints of a neuron with pre-activation `p`, output `y`, binary `β`. -/
def NeuronSpec (a : Act K) (lo up p y β : K) : Prop :=
  y = a.f p ∧ ((lo < 0 ∧ 0 < up ∧ a = .leaky 1) ∨
    (lo ≤ p ∧ p ≤ up ∧ (β = 1 → 0 ≤ p) ∧ (β = 0 → p ≤ 0) ∧ (0 ≤ lo → β = 1) ∧
      (lo < 0 → up ≤ 0 → β = 0)))

theorem neuronCons_isSome (W : Vec K) (b : K) (a : Act K) (lo up : K) :
    ∃ c, neuronCons W b a lo up = some c := by
  unfold neuronCons
  split
  · rename_i h
    cases a with
    | relu =>
      obtain ⟨R, hR⟩ := Option.isSome_iff_exists.1 ((Props.C02_relu_accepts lo up).2 h)
      exact ⟨_, by simp only [scalarRows, hR]; rfl⟩
    | leaky c =>
      obtain ⟨R, hR⟩ := Option.isSome_iff_exists.1 ((Props.C03_leaky_accepts c lo up).2 h)
      exact ⟨_, by simp only [scalarRows, hR]; rfl⟩
  · exact ⟨_, rfl⟩

theorem rows_holds_iff (R : Rows K) (W zc : Vec K) (b y β : K) :
    (∀ r ∈ (List.range R.rhs.length).map fun i =>
          (⟨vsmul (R.Ax.getD i 0) W, [R.As.getD i 0], [R.Aa.getD i 0],
            R.rhs.getD i 0 - R.Ax.getD i 0 * b⟩ : LRow K),
      r.val zc [y] [β] ≤ r.rhs) ↔ R.Holds (dot W zc + b) y β := by
  simp only [List.mem_map, List.mem_range, forall_exists_index, and_imp, forall_apply_eq_imp_iff₂,
    LRow.val, dot_vsmul_left, Rows.Holds, dot_cons, dot_nil_left, add_zero]
  refine forall_congr' fun i => imp_congr_right fun _ => ?_
  constructor <;> intro h <;> linarith

theorem neuronCons_holds {W zc : Vec K} {b lo up y β : K} {a : Act K} {c : Cons K}
    (h : neuronCons W b a lo up = some c) (hβ : β = 0 ∨ β = 1) :
    c.Holds zc [y] [β] ↔ NeuronSpec a lo up (dot W zc + b) y β := by
  unfold neuronCons at h
  split at h
  · rename_i hs
    obtain ⟨R, hR, hc⟩ := Option.map_eq_some_iff.1 h
    subst hc
    simp only [Cons.Holds, rows_holds_iff, List.not_mem_nil, false_imp_iff, implies_true, and_true]
    have n1 : ¬ 0 ≤ lo := not_le.2 hs.1
    have n2 : ¬ up ≤ 0 := not_le.2 hs.2
    cases a with
    | relu =>
      simp only [scalarRows] at hR
      rw [Props.C02_relu_exact _ _ _ _ _ R hR hβ]
      simp only [NeuronSpec, Act.f]
      constructor
      · rintro ⟨⟨h1, h2⟩, h3, h4, h5⟩
        exact ⟨h3, Or.inr ⟨h1, h2, h4, h5, fun h => absurd h n1, fun _ h => absurd h n2⟩⟩
      · rintro ⟨h3, ⟨_, _, h⟩ | ⟨h1, h2, h4, h5, -, -⟩⟩
        · cases h
        · exact ⟨⟨h1, h2⟩, h3, h4, h5⟩
    | leaky c =>
      simp only [scalarRows] at hR
      by_cases hc : c = 1
      · subst hc
        rw [Props.C03_leaky_slope_one _ _ _ _ _ R hR]
        simp only [NeuronSpec, Act.f]
        exact ⟨fun h => ⟨h, Or.inl ⟨hs.1, hs.2, trivial⟩⟩, fun h => h.1⟩
      · rw [Props.C03_leaky_exact _ _ _ _ _ _ R hc hR hβ]
        simp only [NeuronSpec, Act.f]
        constructor
        · rintro ⟨⟨h1, h2⟩, h3, h4, h5⟩
          exact ⟨h3, Or.inr ⟨h1, h2, h4, h5, fun h => absurd h n1, fun _ h => absurd h n2⟩⟩
        · rintro ⟨h3, ⟨_, _, h⟩ | ⟨h1, h2, h4, h5, -, -⟩⟩
          · cases h; exact absurd rfl hc
          · exact ⟨⟨h1, h2⟩, h3, h4, h5⟩
  · rename_i hs
    cases h
    have hl : ¬ (lo < 0 ∧ 0 < up ∧ a = .leaky 1) := fun h => hs ⟨h.1, h.2.1⟩
    simp only [Cons.Holds, List.mem_cons, List.not_mem_nil, or_false, forall_eq_or_imp, forall_eq,
      LRow.val, dot_vsmul_left, dot_vneg_left, dot_zeros_left, dot_cons, dot_nil_left, NeuronSpec,
      hl, false_or]
    by_cases h0 : 0 ≤ lo
    · have hf : fixedSlope a lo = (1, 1) := by simp [fixedSlope, h0]
      rw [hf]
      have nl : ¬ lo < 0 := not_lt.2 h0
      simp only [nl, false_imp_iff, and_true]
      constructor
      · rintro ⟨⟨h1, h2⟩, h3, h4⟩
        have h5 : β = 1 := by linarith
        have h6 : 0 ≤ dot W zc + b := by linarith
        refine ⟨?_, by linarith, by linarith, fun _ => h6, fun h => ?_, fun _ => h5⟩
        · have : a.f (dot W zc + b) = dot W zc + b := by
            cases a
            · simp [Act.f, relu, h6]
            · simp only [Act.f, leaky_of_nonneg h6]
          rw [this]; linarith
        · rw [h5] at h; exact absurd h one_ne_zero
      · rintro ⟨h1, h2, h3, h4, h5, h6⟩
        have h6 := h6 h0
        have h7 := h4 h6
        have : a.f (dot W zc + b) = dot W zc + b := by
          cases a
          · simp [Act.f, relu, h7]
          · simp only [Act.f, leaky_of_nonneg h7]
        rw [this] at h1
        exact ⟨⟨by linarith, by linarith⟩, by linarith, by linarith⟩
    · have hup : up ≤ 0 := by
        by_contra h
        exact hs ⟨not_le.1 h0, not_le.1 h⟩
      obtain ⟨k, hk, hk2⟩ : ∃ k, fixedSlope a lo = (k, 0) ∧ ∀ p, p ≤ 0 → a.f p = k * p := by
        cases a with
        | relu => exact ⟨0, by simp [fixedSlope, h0], fun p hp => by simp [Act.f, relu, hp]⟩
        | leaky c => exact ⟨c, by simp [fixedSlope, h0], fun p hp => leaky_of_nonpos hp⟩
      rw [hk]
      have nl : lo < 0 := not_le.1 h0
      simp only [nl, h0, hup, false_imp_iff, true_imp_iff, true_and]
      constructor
      · rintro ⟨⟨h1, h2⟩, h3, h4⟩
        have h5 : β = 0 := by linarith
        have h6 : dot W zc + b ≤ 0 := by linarith
        refine ⟨?_, by linarith, by linarith, fun h => ?_, fun _ => h6, h5⟩
        · rw [hk2 _ h6]; linarith
        · rw [h5] at h; exact absurd h zero_ne_one
      · rintro ⟨h1, h2, h3, h4, h5, h6⟩
        rw [hk2 _ (h5 h6)] at h1
        exact ⟨⟨by linarith, by linarith⟩, by linarith, by linarith⟩

theorem collect_eq {α : Type*} (l : List (Option α)) (r : List α) (h : collect l = some r) :
    l = r.map some := by
  induction l generalizing r with
  | nil => simp [collect] at h; simp [h]
  | cons a l ih =>
    cases a with
    | none => simp [collect] at h
    | some a =>
      simp only [collect, Option.map_eq_some_iff] at h
      obtain ⟨r', h1, rfl⟩ := h
      simp [ih _ h1]

theorem collect_map_some {α β : Type*} (f : α → Option β) (l : List α) (h : ∀ a ∈ l, ∃ b, f a = some b) :
    ∃ r, collect (l.map f) = some r := by
  induction l with
  | nil => exact ⟨[], rfl⟩
  | cons a l ih =>
    obtain ⟨b, hb⟩ := h a (by simp)
    obtain ⟨r, hr⟩ := ih fun x hx => h x (by simp [hx])
    exact ⟨b :: r, by simp [collect, hb, hr]⟩

theorem collect_mem {α β : Type*} (f : α → Option β) (l : List α) (r : List β)
    (h : collect (l.map f) = some r) :
    (∀ a ∈ l, ∃ b ∈ r, f a = some b) ∧ (∀ b ∈ r, ∃ a ∈ l, f a = some b) := by
  have e := collect_eq _ _ h
  constructor
  · intro a ha
    have : f a ∈ r.map some := by rw [← e]; exact List.mem_map_of_mem ha
    obtain ⟨b, hb, hb2⟩ := List.mem_map.1 this
    exact ⟨b, hb, hb2.symm⟩
  · intro b hb
    have : some b ∈ l.map f := by rw [e]; exact List.mem_map_of_mem hb
    obtain ⟨a, ha, ha2⟩ := List.mem_map.1 this
    exact ⟨a, ha, ha2⟩

theorem dot_set_zeros (n j : ℕ) (c : K) (v : Vec K) (hj : j < n) :
    dot ((zeros n).set j c) v = c * v.getD j 0 := by
  induction n generalizing j v with
  | zero => omega
  | succ n ih =>
    have e : (zeros (n + 1) : Vec K) = 0 :: zeros n := rfl
    rw [e]
    cases j with
    | zero => cases v with
      | nil => simp
      | cons a v => simp
    | succ j => cases v with
      | nil => simp
      | cons a v =>
        rw [List.set_cons_succ, dot_cons, ih _ _ (by omega)]
        simp

theorem neuronCons_shape {W : Vec K} {b : K} {a : Act K} {lo up : K} {c : Cons K}
    (h : neuronCons W b a lo up = some c) :
    ∀ r, r ∈ c.ineq ∨ r ∈ c.eq → r.x.length = W.length ∧ (∃ t, r.s = [t]) ∧ ∃ t, r.z = [t] := by
  unfold neuronCons at h
  split at h
  · obtain ⟨R, -, rfl⟩ := Option.map_eq_some_iff.1 h
    simp only [List.not_mem_nil, or_false, List.mem_map, List.mem_range, forall_exists_index,
      and_imp]
    rintro r i - rfl
    simp
  · cases h
    intro r hr
    simp only [List.mem_cons, List.not_mem_nil, or_false] at hr
    rcases hr with (rfl | rfl) | (rfl | rfl) <;> simp

theorem spread_val (n j : ℕ) (r : LRow K) (zc zn z : Vec K) (hj : j < n)
    (hs : ∃ t, r.s = [t]) (hz : ∃ t, r.z = [t]) :
    (spread n j r).val zc zn z = r.val zc [zn.getD j 0] [z.getD j 0] := by
  obtain ⟨t, ht⟩ := hs
  obtain ⟨u, hu⟩ := hz
  simp only [LRow.val, spread, dot_set_zeros _ _ _ _ hj, ht, hu, List.getD_cons_zero, dot_cons,
    dot_nil_left, add_zero]

theorem getD_isBin {z : Vec K} (h : IsBin z) (j : ℕ) : z.getD j 0 = 0 ∨ z.getD j 0 = 1 := by
  by_cases hj : j < z.length
  · exact h _ (getD_mem z j hj)
  · left; simp [List.getD, not_lt.1 hj]

theorem layerCons_holds {l : Lin K} {a : Act K} {lo up zc zn z : Vec K} {c : Cons K}
    (h : layerCons l a lo up = some c) (hz : IsBin z) :
    c.Holds zc zn z ↔ ∀ j, j < l.W.length →
      NeuronSpec a (lo.getD j 0) (up.getD j 0) (dot (l.W.getD j []) zc + l.b.getD j 0)
        (zn.getD j 0) (z.getD j 0) := by
  obtain ⟨cs, hcs, rfl⟩ := Option.map_eq_some_iff.1 h
  obtain ⟨m1, m2⟩ := collect_mem _ _ _ hcs
  have key : ∀ j, j < l.W.length → ∀ cj, layerNeuron l a lo up j = some cj →
      (cj.Holds zc zn z ↔ NeuronSpec a (lo.getD j 0) (up.getD j 0)
        (dot (l.W.getD j []) zc + l.b.getD j 0) (zn.getD j 0) (z.getD j 0)) := by
    intro j hj cj hcj
    obtain ⟨c0, h0, rfl⟩ := Option.map_eq_some_iff.1 hcj
    have hb : l.b = l.bias.getD (zeros l.W.length) := rfl
    rw [hb, ← neuronCons_holds h0 (getD_isBin hz j)]
    have hsh := neuronCons_shape h0
    simp only [Cons.Holds, List.forall_mem_map]
    refine and_congr ?_ ?_
    · refine forall_congr' fun r => imp_congr_right fun hr => ?_
      obtain ⟨-, h1, h2⟩ := hsh r (Or.inl hr)
      rw [spread_val _ _ _ _ _ _ hj h1 h2]; rfl
    · refine forall_congr' fun r => imp_congr_right fun hr => ?_
      obtain ⟨-, h1, h2⟩ := hsh r (Or.inr hr)
      rw [spread_val _ _ _ _ _ _ hj h1 h2]; rfl
  constructor
  · intro hh j hj
    obtain ⟨cj, hc1, hc2⟩ := m1 j (List.mem_range.2 hj)
    refine (key j hj cj hc2).1 ⟨fun r hr => hh.1 r ?_, fun r hr => hh.2 r ?_⟩
    · exact List.mem_flatMap.2 ⟨cj, hc1, hr⟩
    · exact List.mem_flatMap.2 ⟨cj, hc1, hr⟩
  · intro hh
    refine ⟨fun r hr => ?_, fun r hr => ?_⟩
    · obtain ⟨cj, hc1, hc2⟩ := List.mem_flatMap.1 hr
      obtain ⟨j, hj, hj2⟩ := m2 cj hc1
      have hj := List.mem_range.1 hj
      exact ((key j hj cj hj2).2 (hh j hj)).1 r hc2
    · obtain ⟨cj, hc1, hc2⟩ := List.mem_flatMap.1 hr
      obtain ⟨j, hj, hj2⟩ := m2 cj hc1
      have hj := List.mem_range.1 hj
      exact ((key j hj cj hj2).2 (hh j hj)).2 r hc2

theorem layerCons_isSome (l : Lin K) (a : Act K) (lo up : Vec K) :
    ∃ c, layerCons l a lo up = some c := by
  obtain ⟨r, hr⟩ := collect_map_some (layerNeuron l a lo up) (List.range l.W.length) (by
    intro j _
    obtain ⟨c, hc⟩ := neuronCons_isSome (l.W.getD j []) ((l.bias.getD (zeros l.W.length)).getD j 0) a
      (lo.getD j 0) (up.getD j 0)
    exact ⟨_, by unfold layerNeuron; rw [hc]; rfl⟩)
  exact ⟨_, by unfold layerCons; rw [hr]; rfl⟩

theorem layerCons_shape {l : Lin K} {a : Act K} {lo up : Vec K} {c : Cons K}
    (h : layerCons l a lo up = some c) (hW : HasCols l.W l.inF) :
    ∀ r, r ∈ c.ineq ∨ r ∈ c.eq →
      r.x.length = l.inF ∧ r.s.length = l.W.length ∧ r.z.length = l.W.length := by
  obtain ⟨cs, hcs, rfl⟩ := Option.map_eq_some_iff.1 h
  obtain ⟨-, m2⟩ := collect_mem _ _ _ hcs
  have key : ∀ cj ∈ cs, ∀ r, r ∈ cj.ineq ∨ r ∈ cj.eq →
      r.x.length = l.inF ∧ r.s.length = l.W.length ∧ r.z.length = l.W.length := by
    intro cj hcj
    obtain ⟨j, hj, hj2⟩ := m2 cj hcj
    have hj := List.mem_range.1 hj
    obtain ⟨c0, h0, rfl⟩ := Option.map_eq_some_iff.1 hj2
    have hsh := neuronCons_shape h0
    have hl : (l.W.getD j []).length = l.inF := by
      have : l.W.getD j [] = l.W[j] := by simp [List.getD, hj]
      rw [this]; exact hW _ (List.getElem_mem hj)
    intro r hr
    simp only [List.mem_map] at hr
    rcases hr with ⟨r0, hr0, rfl⟩ | ⟨r0, hr0, rfl⟩
    · have := (hsh r0 (Or.inl hr0)).1
      exact ⟨by rw [spread, this, hl], by simp [spread], by simp [spread]⟩
    · have := (hsh r0 (Or.inr hr0)).1
      exact ⟨by rw [spread, this, hl], by simp [spread], by simp [spread]⟩
  intro r hr
  rcases hr with hr | hr
  · obtain ⟨cj, h1, h2⟩ := List.mem_flatMap.1 hr
    exact key cj h1 r (Or.inl h2)
  · obtain ⟨cj, h1, h2⟩ := List.mem_flatMap.1 hr
    exact key cj h1 r (Or.inr h2)

theorem take_zeros (n m : ℕ) : ((zeros n : Vec K).take m) = zeros (min m n) := by simp [zeros]
theorem drop_zeros (n m : ℕ) : ((zeros n : Vec K).drop m) = zeros (n - m) := by simp [zeros]

theorem dot_setSlice_zeros (n off : ℕ) (w v : Vec K) (h : off + w.length ≤ n) :
    dot (setSlice (zeros n) off w) v = dot w (v.drop off) := by
  unfold setSlice
  rw [dot_append_left, dot_append_left, take_zeros, drop_zeros]
  simp only [dot_zeros_left, add_zero, zero_add, List.length_append, length_zeros]
  rw [min_eq_left (by omega), List.drop_take, Nat.add_sub_cancel_left,
    dot_take_of_length _ _ _ (le_refl _)]

theorem length_setSlice (v : Vec K) (off : ℕ) (w : Vec K) (h : off + w.length ≤ v.length) :
    (setSlice v off w).length = v.length := by
  simp [setSlice]; omega

theorem dot_setSlice2 (n o1 : ℕ) (w1 w2 v : Vec K) (h : o1 + w1.length + w2.length ≤ n) :
    dot (setSlice (setSlice (zeros n) o1 w1) (o1 + w1.length) w2) v
      = dot w1 (v.drop o1) + dot w2 (v.drop (o1 + w1.length)) := by
  have e1 : (setSlice (zeros n) o1 w1).take (o1 + w1.length) = zeros o1 ++ w1 := by
    simp only [setSlice, take_zeros, drop_zeros]
    rw [min_eq_left (by omega), List.take_left']
    simp
  have e2 : (setSlice (zeros n) o1 w1).drop (o1 + w1.length + w2.length)
      = zeros (n - (o1 + w1.length + w2.length)) := by
    simp only [setSlice, take_zeros, drop_zeros]
    rw [min_eq_left (by omega), List.drop_append]
    simp only [List.length_append, length_zeros, Nat.add_sub_cancel_left]
    rw [List.drop_eq_nil_of_le (by simp), drop_zeros]
    simp [Nat.sub_sub]
  unfold setSlice at e1 e2 ⊢
  rw [e1, e2, dot_append_left, dot_append_left, dot_append_left]
  simp only [dot_zeros_left, add_zero, zero_add, List.length_append, length_zeros]
  have e3 : o1 + w1.length + w2.length - (o1 + w1.length) = w2.length := by omega
  simp only [List.drop_take, e3, List.take_take]
  rw [dot_take_of_length _ _ _ (le_refl _), dot_take_of_length _ _ _ (by omega)]

/-- The layer-wise meaning: `zc` is the input of the first layer of the list; `s`, `z`, `lo`, `up` are the
parts of the flat vectors belonging to the layers of the list. -/
def ChainSpec : List (Lin K × Act K) → (zc s z lo up : Vec K) → Prop
  | [], _, _, _, _, _ => True
  | (l, a) :: rest, zc, s, z, lo, up =>
    (∀ j, j < l.W.length → NeuronSpec a (lo.getD j 0) (up.getD j 0)
      (dot (l.W.getD j []) zc + l.b.getD j 0) (s.getD j 0) (z.getD j 0)) ∧
    ChainSpec rest (s.take l.W.length) (s.drop l.W.length) (z.drop l.W.length)
      (lo.drop l.W.length) (up.drop l.W.length)

theorem getD_drop (v : Vec K) (o j : ℕ) : (v.drop o).getD j 0 = v.getD (o + j) 0 := by
  simp [List.getD, List.getElem?_drop]

theorem getD_take (v : Vec K) (o j : ℕ) (h : j < o) : (v.take o).getD j 0 = v.getD j 0 := by
  simp [List.getD, h]

theorem slice_getD (v : Vec K) (off w j : ℕ) (h : j < w) :
    (slice v off w).getD j 0 = (v.drop off).getD j 0 := by
  unfold slice
  rw [getD_take _ _ _ h]

theorem isBin_drop {z : Vec K} (h : IsBin z) (o : ℕ) : IsBin (z.drop o) :=
  fun b hb => h b (List.mem_of_mem_drop hb)

theorem hiddenCons_isSome (xs n : ℕ) (zlo zup : Vec K) (first : Bool) (offPrev off : ℕ)
    (hs : List (Lin K × Act K)) : ∃ c, hiddenCons xs n zlo zup first offPrev off hs = some c := by
  induction hs generalizing first offPrev off with
  | nil => exact ⟨_, rfl⟩
  | cons p rest ih =>
    obtain ⟨l, a⟩ := p
    obtain ⟨c, hc⟩ := layerCons_isSome l a (slice zlo off l.W.length) (slice zup off l.W.length)
    obtain ⟨r, hr⟩ := ih false off (off + l.W.length)
    exact ⟨_, by rw [hiddenCons, hc, hr]⟩

theorem hiddenCons_holds {xs n : ℕ} {zlo zup x s z : Vec K} {m : ℕ} (hz : IsBin z) :
    ∀ (hs : List (Lin K × Act K)) (first : Bool) (offPrev off : ℕ) (c : Cons K) (k : ℕ),
      hiddenCons xs n zlo zup first offPrev off hs = some c →
      HidOk k hs m → off + numUnits hs ≤ n →
      (first = true → xs = k) → (first = false → offPrev + k = off) →
      (c.Holds x s z ↔ ChainSpec hs (if first then x else (s.drop offPrev).take k) (s.drop off)
        (z.drop off) (zlo.drop off) (zup.drop off)) := by
  intro hs
  induction hs with
  | nil =>
    intro first offPrev off c k h _ _ _ _
    cases h
    simp [Cons.Holds, ChainSpec]
  | cons p rest ih =>
    obtain ⟨l, a⟩ := p
    intro first offPrev off c k h hok hn hf1 hf2
    obtain ⟨hk, hl, hrest⟩ := hok
    subst hk
    simp only [numUnits] at hn
    unfold hiddenCons at h
    split at h
    · rename_i cl cr hcl hcr
      cases h
      have hr := ih false off (off + l.W.length) cr l.W.length hcr hrest (by omega) (by simp)
        (by simp)
      have hsh := layerCons_shape hcl hl.1
      have hval : ∀ r, r ∈ cl.ineq ∨ r ∈ cl.eq →
          (placeRow first xs n offPrev off r).val x s z
            = r.val (if first then x else (s.drop offPrev).take l.inF) (s.drop off) (z.drop off) := by
        intro r hr
        obtain ⟨h1, h2, h3⟩ := hsh r hr
        simp only [LRow.val, placeRow]
        rw [dot_setSlice_zeros _ _ _ _ (by omega)]
        cases first with
        | true =>
          simp only [if_true]
          rw [dot_setSlice_zeros _ _ _ _ (by omega)]
        | false =>
          have ho := hf2 rfl
          rw [← h1] at ho
          simp only [Bool.false_eq_true, if_false, dot_zeros_left, zero_add]
          rw [← ho, dot_setSlice2 _ _ _ _ _ (by omega), dot_take_of_length _ _ _ (by omega)]
      have e1 : (Cons.Holds ⟨cl.ineq.map (placeRow first xs n offPrev off) ++ cr.ineq,
          cl.eq.map (placeRow first xs n offPrev off) ++ cr.eq⟩ x s z) ↔
          cl.Holds (if first then x else (s.drop offPrev).take l.inF) (s.drop off) (z.drop off) ∧
            cr.Holds x s z := by
        simp only [Cons.Holds, List.mem_append, or_imp, forall_and, List.forall_mem_map]
        have q1 : (∀ r ∈ cl.ineq, (placeRow first xs n offPrev off r).val x s z
            ≤ (placeRow first xs n offPrev off r).rhs) ↔ ∀ r ∈ cl.ineq,
            r.val (if first then x else (s.drop offPrev).take l.inF) (s.drop off) (z.drop off)
              ≤ r.rhs := by
          refine forall_congr' fun r => imp_congr_right fun hr => ?_
          rw [hval r (Or.inl hr)]; rfl
        have q2 : (∀ r ∈ cl.eq, (placeRow first xs n offPrev off r).val x s z
            = (placeRow first xs n offPrev off r).rhs) ↔ ∀ r ∈ cl.eq,
            r.val (if first then x else (s.drop offPrev).take l.inF) (s.drop off) (z.drop off)
              = r.rhs := by
          refine forall_congr' fun r => imp_congr_right fun hr => ?_
          rw [hval r (Or.inr hr)]; rfl
        rw [q1, q2]
        exact and_and_and_comm
      rw [e1, layerCons_holds hcl (isBin_drop hz off), hr, ChainSpec]
      simp only [Bool.false_eq_true, if_false, List.drop_drop]
      refine and_congr_left fun _ => ?_
      refine forall_congr' fun j => imp_congr_right fun hj => ?_
      rw [slice_getD _ _ _ _ hj, slice_getD _ _ _ _ hj]
    · cases h

/-- The activation of every unit, flat. -/
def flatActs (hs : List (Lin K × Act K)) : List (Act K) :=
  hs.flatMap fun p => List.replicate p.1.W.length p.2

/-- The part of `NeuronSpec` that does not concern the output. -/
def UnitOk (a : Act K) (lo up p β : K) : Prop :=
  (lo < 0 ∧ 0 < up ∧ a = .leaky 1) ∨
    (lo ≤ p ∧ p ≤ up ∧ (β = 1 → 0 ≤ p) ∧ (β = 0 → p ≤ 0) ∧ (0 ≤ lo → β = 1) ∧
      (lo < 0 → up ≤ 0 → β = 0))

theorem Lin.getD_eval {l : Lin K} (h : l.Ok) (x : Vec K) (j : ℕ) :
    (l.eval x).getD j 0 = dot (l.W.getD j []) x + l.b.getD j 0 := by
  unfold Spec.Lin.eval
  rw [getD_vadd _ _ _ (by simp [h.2]), getD_matVec]

theorem getD_map_f (f : K → K) (v : Vec K) (j : ℕ) (hj : j < v.length) :
    (v.map f).getD j 0 = f (v.getD j 0) := by
  simp [List.getD, hj]

theorem chain_iff {m : ℕ} : ∀ (hs : List (Lin K × Act K)) (k : ℕ) (zc s z lo up : Vec K),
    HidOk k hs m → s.length = numUnits hs →
    (ChainSpec hs zc s z lo up ↔ s = (postacts hs zc).flatten ∧
      ∀ i, i < numUnits hs → UnitOk ((flatActs hs).getD i .relu) (lo.getD i 0) (up.getD i 0)
        ((preacts hs zc).flatten.getD i 0) (z.getD i 0)) := by
  intro hs
  induction hs with
  | nil =>
    intro k zc s z lo up _ hs
    have : s = [] := List.eq_nil_of_length_eq_zero hs
    simp [ChainSpec, this, postacts, numUnits]
  | cons p rest ih =>
    obtain ⟨l, a⟩ := p
    intro k zc s z lo up hok hlen
    obtain ⟨hk, hl, hrest⟩ := hok
    simp only [numUnits] at hlen
    have hle := Lin.length_eval hl zc
    have hfl : (List.replicate l.W.length a).length = l.W.length := by simp
    simp only [ChainSpec, numUnits, postacts, preacts, List.flatten_cons, flatActs,
      List.flatMap_cons]
    rw [ih _ _ _ _ _ _ hrest (by simp; omega), forall_lt_add]
    have h1 : ∀ i, i < l.W.length → (UnitOk
        ((List.replicate l.W.length a ++ List.flatMap (fun p => List.replicate p.1.W.length p.2)
          rest).getD i .relu) (lo.getD i 0) (up.getD i 0)
        ((l.eval zc ++ (preacts rest ((l.eval zc).map a.f)).flatten).getD i 0) (z.getD i 0) ↔
        UnitOk a (lo.getD i 0) (up.getD i 0) (dot (l.W.getD i []) zc + l.b.getD i 0)
          (z.getD i 0)) := by
      intro i hi
      rw [getD_append_lt _ _ _ _ (by simpa using hi), getD_append_lt _ _ _ _ (by omega),
        Lin.getD_eval hl]
      have : (List.replicate l.W.length a).getD i .relu = a := by simp [List.getD, hi]
      rw [this]
    have h2 : ∀ i, (UnitOk
        ((List.replicate l.W.length a ++ List.flatMap (fun p => List.replicate p.1.W.length p.2)
          rest).getD (l.W.length + i) .relu) (lo.getD (l.W.length + i) 0)
          (up.getD (l.W.length + i) 0)
        ((l.eval zc ++ (preacts rest ((l.eval zc).map a.f)).flatten).getD (l.W.length + i) 0)
          (z.getD (l.W.length + i) 0) ↔
        UnitOk ((flatActs rest).getD i .relu) ((lo.drop l.W.length).getD i 0)
          ((up.drop l.W.length).getD i 0)
          ((preacts rest ((l.eval zc).map a.f)).flatten.getD i 0)
          ((z.drop l.W.length).getD i 0)) := by
      intro i
      have e1 := getD_append_add (List.replicate l.W.length a)
        (List.flatMap (fun p : Lin K × Act K => List.replicate p.1.W.length p.2) rest) i .relu
      have e2 := getD_append_add (l.eval zc) (preacts rest ((l.eval zc).map a.f)).flatten i 0
      rw [hfl] at e1
      rw [hle] at e2
      rw [e1, e2, getD_drop, getD_drop, getD_drop]
      rfl
    have h3 : (∀ j, j < l.W.length → NeuronSpec a (lo.getD j 0) (up.getD j 0)
        (dot (l.W.getD j []) zc + l.b.getD j 0) (s.getD j 0) (z.getD j 0)) ↔
        s.take l.W.length = (l.eval zc).map a.f ∧ ∀ j, j < l.W.length →
          UnitOk a (lo.getD j 0) (up.getD j 0) (dot (l.W.getD j []) zc + l.b.getD j 0)
            (z.getD j 0) := by
      constructor
      · intro h
        refine ⟨vec_ext (by simp [hle]; omega) fun i hi => ?_, fun j hj => (h j hj).2⟩
        have hi : i < l.W.length := by simp at hi; omega
        rw [getD_take _ _ _ hi, getD_map_f _ _ _ (by omega), Lin.getD_eval hl]
        exact (h i hi).1
      · rintro ⟨h, h'⟩ j hj
        refine ⟨?_, h' j hj⟩
        rw [← Lin.getD_eval hl, ← getD_map_f a.f _ _ (by omega), ← h, getD_take _ _ _ hj]
    rw [h3]
    constructor
    · rintro ⟨⟨a1, a2⟩, a3, a4⟩
      rw [a1] at a3 a4
      refine ⟨?_, fun i hi => (h1 i hi).2 (a2 i hi), fun i hi => (h2 i).2 (a4 i hi)⟩
      rw [← a3, ← a1, List.take_append_drop]
    · rintro ⟨a1, a2, a3⟩
      have b1 : s.take l.W.length = (l.eval zc).map a.f := by
        rw [a1, List.take_left' (by simp [hle])]
      have b2 : s.drop l.W.length = (postacts rest ((l.eval zc).map a.f)).flatten := by
        rw [a1, List.drop_left' (by simp [hle])]
      refine ⟨⟨b1, fun i hi => (h1 i hi).1 (a2 i hi)⟩, ?_, fun i hi => ?_⟩
      · rw [b1, b2]
      · rw [b1]; exact (h2 i).1 (a3 i hi)

theorem forall_rowsTensor (xs n m : ℕ) (rs : List (LRow K)) (P : K → K → Prop) (x s z : Vec K) :
    (∀ r ∈ blockRows (rowsTensor xs LRow.x rs) (rowsTensor n LRow.s rs) (rowsTensor m LRow.z rs)
      (some (rs.map LRow.rhs)), P (r.val x s z) r.rhs) ↔ ∀ r ∈ rs, P (r.val x s z) r.rhs := by
  rw [forall_blockRows]
  simp only [Option.getD_some, List.length_map, rowsTensor, mrow_some]
  have key : ∀ i (hi : i < rs.length), (⟨(rs.map LRow.x).getD i [], (rs.map LRow.s).getD i [],
      (rs.map LRow.z).getD i [], (rs.map LRow.rhs).getD i 0⟩ : LRow K) = rs[i] := by
    intro i hi
    simp [List.getD, hi]
  constructor
  · intro h r hr
    obtain ⟨i, hi, rfl⟩ := List.mem_iff_getElem.1 hr
    have := h i hi
    rw [key i hi] at this
    have e : (rs.map LRow.rhs).getD i 0 = rs[i].rhs := by simp [List.getD, hi]
    rwa [e] at this
  · intro h i hi
    rw [key i hi]
    have e : (rs.map LRow.rhs).getD i 0 = rs[i].rhs := by simp [List.getD, hi]
    rw [e]
    exact h _ (List.getElem_mem hi)

theorem boxRows_holds (xs n : ℕ) (xlo xup x s z : Vec K) (hx : x.length = xs) (hl : xlo.length = xs)
    (hu : xup.length = xs) :
    (∀ r ∈ boxRows xs n xlo xup, r.val x s z ≤ r.rhs) ↔ InBox xlo xup x := by
  simp only [boxRows, List.mem_append, or_imp, forall_and, List.forall_mem_map, List.mem_range,
    LRow.val, dot_zeros_left, add_zero, dot_vneg_left, neg_le_neg_iff]
  constructor
  · rintro ⟨h1, h2⟩
    refine ⟨by omega, by omega, fun i hi => ?_⟩
    have a := h1 i (by omega)
    have b := h2 i (by omega)
    rw [dot_eyeRow _ _ _ (by omega)] at a b
    exact ⟨b, a⟩
  · rintro ⟨-, -, h⟩
    refine ⟨fun i hi => ?_, fun i hi => ?_⟩
    · rw [dot_eyeRow _ _ _ hi]; exact (h i (by omega)).2
    · rw [dot_eyeRow _ _ _ hi]; exact (h i (by omega)).1

theorem drop_lastOff {k m : ℕ} {hs : List (Lin K × Act K)} (h : HidOk k hs m) (hne : hs ≠ [])
    (x : Vec K) : (postacts hs x).flatten.drop (lastOff hs) = hiddenOut hs x := by
  induction hs generalizing k x with
  | nil => exact absurd rfl hne
  | cons p rest ih =>
    obtain ⟨l, a⟩ := p
    obtain ⟨hk, hl, hrest⟩ := h
    cases rest with
    | nil => simp [postacts, lastOff, hiddenOut]
    | cons q rest =>
      have hlen : ((l.eval x).map a.f).length = l.W.length := by simp [Lin.length_eval hl]
      have := ih hrest (by simp) ((l.eval x).map a.f)
      have e : lastOff ((l, a) :: q :: rest) = l.W.length + lastOff (q :: rest) := rfl
      rw [e, postacts, List.flatten_cons, ← List.drop_drop, List.drop_left' hlen, this]
      rfl

theorem lastOff_add {k m : ℕ} {hs : List (Lin K × Act K)} (h : HidOk k hs m) (hne : hs ≠ []) :
    lastOff hs + m = numUnits hs := by
  induction hs generalizing k with
  | nil => exact absurd rfl hne
  | cons p rest ih =>
    obtain ⟨l, a⟩ := p
    obtain ⟨hk, hl, hrest⟩ := h
    cases rest with
    | nil =>
      have : l.W.length = m := hrest
      simp [lastOff, numUnits, this]
    | cons q rest =>
      have := ih hrest (by simp)
      have e : lastOff ((l, a) :: q :: rest) = l.W.length + lastOff (q :: rest) := rfl
      have e2 : numUnits ((l, a) :: q :: rest) = l.W.length + numUnits (q :: rest) := rfl
      omega

/-- The full meaning of `_output_constraint_given_bounds`. -/
theorem outputCons_feas {net : Net K} {xs : ℕ} {zlo zup xlo xup x s z : Vec K} {c : MIC K}
    (h : outputConsGivenBounds net xs zlo zup xlo xup = some c) (hok : net.Ok xs)
    (hx : x.length = xs) (hl : xlo.length = xs) (hu : xup.length = xs) :
    c.Feas x s z ↔ InBox xlo xup x ∧ s = (postacts net.hidden x).flatten ∧
      z.length = numUnits net.hidden ∧ IsBin z ∧
      ∀ i, i < numUnits net.hidden → UnitOk ((flatActs net.hidden).getD i .relu) (zlo.getD i 0)
        (zup.getD i 0) ((preacts net.hidden x).flatten.getD i 0) (z.getD i 0) := by
  unfold outputConsGivenBounds at h
  simp only at h
  split at h
  · cases h
  · cases h
  · rename_i p ps co hne hco
    have hb : IsBin z → (co.Holds x s z ↔ ChainSpec net.hidden x s z zlo zup) := by
      intro hz
      have := hiddenCons_holds (x := x) (s := s) hz net.hidden true 0 0 co xs hco
        hok.1 (by omega) (by simp) (by simp)
      simpa using this
    cases h
    have hrow : ∀ n, (MIC.Holds
      { Aout_slack := some ⟨n, net.last.W.map fun w => setSlice (zeros n) (lastOff net.hidden) w⟩
        Cout := some (net.last.bias.getD (zeros net.last.W.length))
        Ain_input := rowsTensor xs LRow.x (boxRows xs n xlo xup ++ co.ineq)
        Ain_slack := rowsTensor n LRow.s (boxRows xs n xlo xup ++ co.ineq)
        Ain_binary := rowsTensor n LRow.z (boxRows xs n xlo xup ++ co.ineq)
        rhs_in := some ((boxRows xs n xlo xup ++ co.ineq).map LRow.rhs)
        Aeq_input := rowsTensor xs LRow.x co.eq
        Aeq_slack := rowsTensor n LRow.s co.eq
        Aeq_binary := rowsTensor n LRow.z co.eq
        rhs_eq := some (co.eq.map LRow.rhs) } x s z ↔ InBox xlo xup x ∧ co.Holds x s z) := by
      intro n
      simp only [MIC.Holds, MIC.ineqRows, MIC.eqRows]
      rw [forall_rowsTensor xs n n _ (· ≤ ·) x s z, forall_rowsTensor xs n n _ (· = ·) x s z]
      simp only [List.mem_append, or_imp, forall_and, boxRows_holds xs n xlo xup x s z hx hl hu,
        and_assoc, Cons.Holds]
    constructor
    · rintro ⟨ls, lz, bz, hr, -⟩
      obtain ⟨h1, h2⟩ := (hrow _).1 hr
      obtain ⟨h3, h4⟩ := (chain_iff _ _ _ _ _ _ _ hok.1 ls).1 ((hb bz).1 h2)
      exact ⟨h1, h3, lz, bz, h4⟩
    · rintro ⟨h1, h3, lz, bz, h4⟩
      have ls : s.length = numUnits net.hidden := by rw [h3, length_postacts_flatten hok.1]
      exact ⟨ls, lz, bz, (hrow _).2 ⟨h1, (hb bz).2 ((chain_iff _ _ _ _ _ _ _ hok.1 ls).2 ⟨h3, h4⟩)⟩,
        by simp [MIC.BoundsHold, LoOk, UpOk]⟩

/-- The output of `_output_constraint_given_bounds` at the unit outputs of `x`. -/
theorem outputCons_out {net : Net K} {xs : ℕ} {zlo zup xlo xup x z : Vec K} {c : MIC K}
    (h : outputConsGivenBounds net xs zlo zup xlo xup = some c) (hok : net.Ok xs)
    (hx : x.length = xs) : c.out x (postacts net.hidden x).flatten z = net.eval x := by
  have hlast := length_hiddenOut hok.1 x hx
  unfold outputConsGivenBounds at h
  simp only at h
  split at h
  · cases h
  · cases h
  · rename_i p ps co hne hco
    have hne' : net.hidden ≠ [] := by rw [hne]; simp
    cases h
    have hb : net.last.b = net.last.bias.getD (zeros net.last.W.length) := rfl
    apply vec_ext
    · simp [MIC.out, MIC.numOut, Net.eval, Lin.length_eval hok.2]
    · intro i hi
      have hi' : i < net.last.W.length := by simpa [MIC.out, MIC.numOut] using hi
      have hw : (net.last.W.getD i []).length = net.last.inF := by
        have e : net.last.W.getD i [] = net.last.W[i] := by simp [List.getD, hi']
        rw [e]; exact hok.2.1 _ (List.getElem_mem hi')
      have e1 : (net.last.W.map fun w => setSlice (zeros (numUnits net.hidden))
          (lastOff net.hidden) w).getD i []
          = setSlice (zeros (numUnits net.hidden)) (lastOff net.hidden) (net.last.W.getD i []) := by
        simp [List.getD, hi']
      have e2 : (MIC.out
          { Aout_slack := some ⟨numUnits net.hidden, net.last.W.map fun w =>
              setSlice (zeros (numUnits net.hidden)) (lastOff net.hidden) w⟩
            Cout := some (net.last.bias.getD (zeros net.last.W.length)) } x
            (postacts net.hidden x).flatten z).getD i 0
          = dot (net.last.W.getD i []) (hiddenOut net.hidden x) + net.last.b.getD i 0 := by
        rw [hb]
        simp only [MIC.out, MIC.numOut, List.length_map]
        rw [show ∀ f : ℕ → K, ((List.range net.last.W.length).map f).getD i 0 = f i from
          fun f => by simp [List.getD, hi']]
        simp only [mrow_none, dot_nil_left, zero_add, add_zero, mrow_some, Option.getD_some]
        rw [e1, dot_setSlice_zeros _ _ _ _ (by rw [hw]; exact (lastOff_add hok.1 hne').le),
          drop_lastOff hok.1 hne']
      rw [Net.eval, Lin.getD_eval hok.2, ← e2]
      rfl

theorem outputCons_isSome (net : Net K) (xs : ℕ) (zlo zup xlo xup : Vec K) (h : net.hidden ≠ []) :
    ∃ c, outputConsGivenBounds net xs zlo zup xlo xup = some c := by
  unfold outputConsGivenBounds
  obtain ⟨c, hc⟩ := hiddenCons_isSome xs (numUnits net.hidden) zlo zup true 0 0 net.hidden
  obtain ⟨p, ps, hp⟩ := List.exists_cons_of_ne_nil h
  simp only [hc]
  split
  · simp_all
  · simp_all
  · exact ⟨_, rfl⟩

end NNL.Model
