import Verif.Lemmas.NetEnc

/-!
# Bound propagation
-/

set_option linter.unusedSectionVars false

namespace NNL.Model

open NNL NNL.Spec

variable {K : Type*} [Field K] [LinearOrder K] [IsStrictOrderedRing K]

theorem inBox_nil : InBox ([] : Vec K) [] [] := ⟨rfl, rfl, fun i hi => by simp at hi⟩

theorem inBox_cons (l u a : K) (lo up x : Vec K) :
    InBox (l :: lo) (u :: up) (a :: x) ↔ (l ≤ a ∧ a ≤ u) ∧ InBox lo up x := by
  constructor
  · rintro ⟨h1, h2, h3⟩
    refine ⟨by simpa using h3 0 (by simp), by simpa using h1, by simpa using h2, fun i hi => ?_⟩
    simpa using h3 (i + 1) (by simpa using hi)
  · rintro ⟨h0, h1, h2, h3⟩
    refine ⟨by simp [h1], by simp [h2], fun i hi => ?_⟩
    cases i with
    | zero => simpa using h0
    | succ i => simpa using h3 i (by simpa using hi)

theorem inBox_append {lo up x lo' up' x' : Vec K} (h : InBox lo up x) (h' : InBox lo' up' x') :
    InBox (lo ++ lo') (up ++ up') (x ++ x') := by
  induction x generalizing lo up with
  | nil =>
    have e1 : lo = [] := List.eq_nil_of_length_eq_zero h.1.symm
    have e2 : up = [] := List.eq_nil_of_length_eq_zero h.2.1.symm
    subst e1 e2
    simpa using h'
  | cons a x ih =>
    cases lo with
    | nil => exact absurd h.1 (by simp)
    | cons l lo => cases up with
      | nil => exact absurd h.2.1 (by simp)
      | cons u up =>
        obtain ⟨h1, h2⟩ := (inBox_cons _ _ _ _ _ _).1 h
        exact (inBox_cons _ _ _ _ _ _).2 ⟨h1, ih h2⟩

theorem inBox_drop {lo up x : Vec K} (h : InBox lo up x) (o : ℕ) :
    InBox (lo.drop o) (up.drop o) (x.drop o) := by
  obtain ⟨h1, h2, h3⟩ := h
  refine ⟨by simp [h1], by simp only [List.length_drop, h2], fun i hi => ?_⟩
  simp only [getD_drop]
  exact h3 _ (by simp at hi; omega)

theorem inBox_take {lo up x : Vec K} (h : InBox lo up x) (o : ℕ) :
    InBox (lo.take o) (up.take o) (x.take o) := by
  obtain ⟨h1, h2, h3⟩ := h
  refine ⟨by simp [h1], by simp only [List.length_take, h2], fun i hi => ?_⟩
  simp only [List.length_take, lt_min_iff] at hi
  simp only [getD_take _ _ _ hi.1]
  exact h3 _ hi.2

theorem maskDot_cons (p : K → Bool) (a v : K) (as vs : Vec K) :
    maskDot p (a :: as) (v :: vs) = (if p a then a * v else 0) + maskDot p as vs := by
  unfold maskDot
  rw [List.zip_cons_cons, List.filter_cons]
  split <;> simp_all

@[simp] theorem maskDot_nil_left (p : K → Bool) (v : Vec K) : maskDot p [] v = 0 := by
  simp [maskDot]
@[simp] theorem maskDot_nil_right (p : K → Bool) (a : Vec K) : maskDot p a [] = 0 := by
  simp [maskDot]

theorem rowLo_cons (a l u b : K) (as lo up : Vec K) :
    rowLo (a :: as) b (l :: lo) (u :: up) = (if a > 0 then a * l else a * u) + rowLo as b lo up := by
  unfold rowLo
  rw [maskDot_cons, maskDot_cons]
  by_cases h : a > 0
  · simp [h, not_le.2 h]; ring
  · simp [h, not_lt.1 h]; ring

theorem rowUp_cons (a l u b : K) (as lo up : Vec K) :
    rowUp (a :: as) b (l :: lo) (u :: up) = (if a > 0 then a * u else a * l) + rowUp as b lo up := by
  unfold rowUp
  rw [maskDot_cons, maskDot_cons]
  by_cases h : a > 0
  · simp [h, not_le.2 h]; ring
  · simp [h, not_lt.1 h]; ring

theorem row_sound (a lo up x : Vec K) (b : K) (h : InBox lo up x) :
    rowLo a b lo up ≤ dot a x + b ∧ dot a x + b ≤ rowUp a b lo up := by
  induction a generalizing lo up x with
  | nil => simp [rowLo, rowUp]
  | cons a as ih =>
    cases x with
    | nil =>
      have e1 : lo = [] := List.eq_nil_of_length_eq_zero h.1.symm
      have e2 : up = [] := List.eq_nil_of_length_eq_zero h.2.1.symm
      subst e1 e2
      simp [rowLo, rowUp]
    | cons c x => cases lo with
      | nil => exact absurd h.1 (by simp)
      | cons l lo => cases up with
        | nil => exact absurd h.2.1 (by simp)
        | cons u up =>
          obtain ⟨⟨h1, h2⟩, h3⟩ := (inBox_cons _ _ _ _ _ _).1 h
          obtain ⟨i1, i2⟩ := ih _ _ _ h3
          rw [rowLo_cons, rowUp_cons, dot_cons]
          split
          · rename_i ha
            have := mul_le_mul_of_nonneg_left h1 ha.le
            have := mul_le_mul_of_nonneg_left h2 ha.le
            exact ⟨by linarith, by linarith⟩
          · rename_i ha
            have ha := not_lt.1 ha
            have := mul_le_mul_of_nonpos_left h1 ha
            have := mul_le_mul_of_nonpos_left h2 ha
            exact ⟨by linarith, by linarith⟩

/-- `lo ≤ up` elementwise. -/
def BoxOrd (lo up : Vec K) : Prop :=
  lo.length = up.length ∧ ∀ i, i < lo.length → lo.getD i 0 ≤ up.getD i 0

theorem row_tight (a lo up : Vec K) (b : K) (h : BoxOrd lo up) :
    (∃ x, InBox lo up x ∧ dot a x + b = rowLo a b lo up) ∧
      (∃ x, InBox lo up x ∧ dot a x + b = rowUp a b lo up) := by
  induction lo generalizing a up with
  | nil =>
    have e2 : up = [] := List.eq_nil_of_length_eq_zero h.1.symm
    subst e2
    exact ⟨⟨[], inBox_nil, by simp [rowLo]⟩, ⟨[], inBox_nil, by simp [rowUp]⟩⟩
  | cons l lo ih => cases up with
    | nil => exact absurd h.1 (by simp)
    | cons u up =>
      have hlu : l ≤ u := by simpa using h.2 0 (by simp)
      have hr : BoxOrd lo up := ⟨by simpa using h.1, fun i hi => by
        simpa using h.2 (i + 1) (by simpa using hi)⟩
      cases a with
      | nil =>
        obtain ⟨⟨x, hx, h1⟩, ⟨y, hy, h2⟩⟩ := ih [] up hr
        refine ⟨⟨l :: x, (inBox_cons _ _ _ _ _ _).2 ⟨⟨le_refl _, hlu⟩, hx⟩, ?_⟩,
          ⟨l :: y, (inBox_cons _ _ _ _ _ _).2 ⟨⟨le_refl _, hlu⟩, hy⟩, ?_⟩⟩
        · simp [rowLo]
        · simp [rowUp]
      | cons a as =>
        obtain ⟨⟨x, hx, h1⟩, ⟨y, hy, h2⟩⟩ := ih as up hr
        by_cases ha : a > 0
        · refine ⟨⟨l :: x, (inBox_cons _ _ _ _ _ _).2 ⟨⟨le_refl _, hlu⟩, hx⟩, ?_⟩,
            ⟨u :: y, (inBox_cons _ _ _ _ _ _).2 ⟨⟨hlu, le_refl _⟩, hy⟩, ?_⟩⟩
          · rw [rowLo_cons, dot_cons, if_pos ha, ← h1]; ring
          · rw [rowUp_cons, dot_cons, if_pos ha, ← h2]; ring
        · refine ⟨⟨u :: x, (inBox_cons _ _ _ _ _ _).2 ⟨⟨hlu, le_refl _⟩, hx⟩, ?_⟩,
            ⟨l :: y, (inBox_cons _ _ _ _ _ _).2 ⟨⟨le_refl _, hlu⟩, hy⟩, ?_⟩⟩
          · rw [rowLo_cons, dot_cons, if_neg ha, ← h1]; ring
          · rw [rowUp_cons, dot_cons, if_neg ha, ← h2]; ring

theorem getD_range_map (n i : ℕ) (f : ℕ → K) (hi : i < n) : ((List.range n).map f).getD i 0 = f i := by
  simp [List.getD, hi]

theorem rangeIA_sound {n : ℕ} {A : Mat K} {b lo up ol ou x : Vec K}
    (h : rangeIA n A b lo up = some (ol, ou)) (hx : InBox lo up x) :
    InBox ol ou (vadd (matVec A x) b) := by
  unfold rangeIA at h
  split at h
  · rename_i hc
    cases h
    refine ⟨by simp [hc.1], by simp [hc.1], fun i hi => ?_⟩
    have hi' : i < A.length := by simp at hi; omega
    rw [getD_range_map _ _ _ hi', getD_range_map _ _ _ hi', getD_vadd _ _ _ (by simp [hc.1]),
      getD_matVec]
    exact row_sound _ _ _ _ _ hx
  · cases h

theorem actBounds_sound (a : Act K) (lo up p : K) (h1 : lo ≤ p) (h2 : p ≤ up) :
    (actBounds a lo up).1 ≤ a.f p ∧ a.f p ≤ (actBounds a lo up).2 := by
  cases a with
  | relu =>
    simp only [actBounds, Act.f, relu]
    exact ⟨max_le_max_right 0 h1, max_le_max_right 0 h2⟩
  | leaky c =>
    simp only [actBounds, Act.f]
    split
    · rename_i hc
      rcases le_total 0 p with hp | hp
      · have hu : 0 ≤ up := le_trans hp h2
        rw [leaky_of_nonneg hp, leaky_of_nonneg hu]
        refine ⟨?_, le_max_of_le_right h2⟩
        split
        · exact hp
        · rename_i hn
          rcases le_total 0 lo with hl | hl
          · rw [leaky_of_nonneg hl]; exact le_trans (min_le_left _ _) h1
          · have : ¬ (0 < up ∧ lo < 0) := fun h => hn ⟨h.2, h.1⟩
            rcases lt_or_eq_of_le hl with hl | hl
            · have hu' : up = 0 := le_antisymm (not_lt.1 fun h => this ⟨h, hl⟩) hu
              exact le_trans (min_le_right _ _) (by rw [hu']; exact hp)
            · rw [hl, leaky_of_nonneg (le_refl _)]
              exact le_trans (min_le_left _ _) hp
      · have hl : lo ≤ 0 := le_trans h1 hp
        rw [leaky_of_nonpos hp, leaky_of_nonpos hl]
        have e1 : c * p ≤ c * lo := mul_le_mul_of_nonpos_left h1 hc.le
        have e0 : 0 ≤ c * p := mul_nonneg_of_nonpos_of_nonpos hc.le hp
        refine ⟨?_, le_max_of_le_left e1⟩
        split
        · exact e0
        · rename_i hn
          rcases le_total up 0 with hu | hu
          · rw [leaky_of_nonpos hu]
            exact le_trans (min_le_right _ _) (mul_le_mul_of_nonpos_left h2 hc.le)
          · rcases lt_or_eq_of_le hl with hl' | hl'
            · rcases lt_or_eq_of_le hu with hu' | hu'
              · exact absurd ⟨hl', hu'⟩ hn
              · rw [← hu', leaky_of_nonneg (le_refl _)]
                exact le_trans (min_le_right _ _) e0
            · rw [hl', mul_zero]
              exact le_trans (min_le_left _ _) e0
    · rename_i hc
      have hc := not_lt.1 hc
      have mono : ∀ u v : K, u ≤ v → leaky c u ≤ leaky c v := by
        intro u v h
        unfold leaky
        have := mul_le_mul_of_nonneg_left (min_le_min_right 0 h) hc
        have := max_le_max_right (0 : K) h
        linarith
      exact ⟨mono _ _ h1, mono _ _ h2⟩

theorem propagateAct_sound (a : Act K) {lo up p : Vec K} (h : InBox lo up p) :
    InBox (propagateAct a lo up).1 (propagateAct a lo up).2 (p.map a.f) := by
  induction p generalizing lo up with
  | nil =>
    have e1 : lo = [] := List.eq_nil_of_length_eq_zero h.1.symm
    have e2 : up = [] := List.eq_nil_of_length_eq_zero h.2.1.symm
    subst e1 e2
    exact inBox_nil
  | cons c x ih => cases lo with
    | nil => exact absurd h.1 (by simp)
    | cons l lo => cases up with
      | nil => exact absurd h.2.1 (by simp)
      | cons u up =>
        obtain ⟨⟨h1, h2⟩, h3⟩ := (inBox_cons _ _ _ _ _ _).1 h
        have := ih h3
        simp only [propagateAct, List.zipWith_cons_cons, List.map_cons] at this ⊢
        exact (inBox_cons _ _ _ _ _ _).2 ⟨actBounds_sound a l u c h1 h2, this⟩

theorem layerBoundIA_sound {hs : List (Lin K × Act K)} {lo up x : Vec K} {B : LayerBounds K}
    (h : layerBoundIA hs lo up = some B) (hx : InBox lo up x) :
    InBox B.preLo B.preUp (preacts hs x).flatten ∧ InBox B.postLo B.postUp (postacts hs x).flatten := by
  induction hs generalizing lo up x B with
  | nil => cases h; exact ⟨inBox_nil, inBox_nil⟩
  | cons p rest ih =>
    obtain ⟨l, a⟩ := p
    obtain ⟨pre, h1, h⟩ := Option.bind_eq_some_iff.1 h
    obtain ⟨r, h2, h⟩ := Option.bind_eq_some_iff.1 h
    cases h
    have s1 : InBox pre.1 pre.2 (l.eval x) := rangeIA_sound h1 hx
    have s2 := propagateAct_sound a s1
    obtain ⟨i1, i2⟩ := ih h2 s2
    simp only [preacts, postacts, List.flatten_cons]
    exact ⟨inBox_append s1 i1, inBox_append s2 i2⟩

theorem rangeIA_isSome {l : Lin K} (hl : l.Ok) {lo up : Vec K} (h1 : lo.length = l.inF)
    (h2 : up.length = l.inF) :
    ∃ o, rangeIA l.inF l.W (l.bias.getD (zeros l.W.length)) lo up = some o ∧
      o.1.length = l.W.length ∧ o.2.length = l.W.length := by
  have hb : (l.bias.getD (zeros l.W.length)).length = l.W.length := hl.2
  refine ⟨_, by unfold rangeIA; rw [if_pos ⟨hb, h1, h2⟩], by simp, by simp⟩

theorem length_propagateAct (a : Act K) (lo up : Vec K) (n : ℕ) (h1 : lo.length = n)
    (h2 : up.length = n) :
    (propagateAct a lo up).1.length = n ∧ (propagateAct a lo up).2.length = n := by
  simp [propagateAct, h1, h2]

theorem layerBoundIA_isSome {hs : List (Lin K × Act K)} {k m : ℕ} (h : HidOk k hs m)
    {lo up : Vec K} (h1 : lo.length = k) (h2 : up.length = k) :
    ∃ B, layerBoundIA hs lo up = some B ∧ B.preLo.length = numUnits hs ∧
      B.preUp.length = numUnits hs := by
  induction hs generalizing k lo up with
  | nil => exact ⟨_, rfl, rfl, rfl⟩
  | cons p rest ih =>
    obtain ⟨l, a⟩ := p
    obtain ⟨hk, hl, hrest⟩ := h
    subst hk
    obtain ⟨o, ho, o1, o2⟩ := rangeIA_isSome hl h1 h2
    obtain ⟨q1, q2⟩ := length_propagateAct a o.1 o.2 _ o1 o2
    obtain ⟨B, hB, b1, b2⟩ := ih hrest q1 q2
    refine ⟨_, by simp only [layerBoundIA]; rw [ho]; simp only [Option.bind_eq_bind, Option.bind_some]; rw [hB]; rfl, ?_, ?_⟩
    · simp [numUnits, o1, b1]
    · simp [numUnits, o2, b2]

/-- The last hidden layer reads its pre-activations from the end of the flat vector. -/
theorem lastPre {k m : ℕ} {hs : List (Lin K × Act K)} (h : HidOk k hs m) {l : Lin K} {a : Act K}
    (hlast : hs.getLast? = some (l, a)) (x : Vec K) :
    hiddenOut hs x = ((preacts hs x).flatten.drop (lastOff hs)).map a.f ∧ l.W.length = m := by
  induction hs generalizing k x with
  | nil => simp at hlast
  | cons p rest ih =>
    obtain ⟨l', a'⟩ := p
    obtain ⟨hk, hl, hrest⟩ := h
    cases rest with
    | nil =>
      simp at hlast
      obtain ⟨rfl, rfl⟩ := hlast
      refine ⟨by simp [hiddenOut, preacts, lastOff], hrest⟩
    | cons q rest =>
      have hl2 : (q :: rest).getLast? = some (l, a) := by
        rw [← hlast]; simp [List.getLast?_cons_cons]
      obtain ⟨i1, i2⟩ := ih hrest hl2 ((l'.eval x).map a'.f)
      refine ⟨?_, i2⟩
      have e : lastOff ((l', a') :: q :: rest) = l'.W.length + lastOff (q :: rest) := rfl
      rw [e, preacts, List.flatten_cons, ← List.drop_drop,
        List.drop_left' (Lin.length_eval hl x), ← i1]
      rfl

theorem outputBoundsIA_sound {net : Net K} {n : ℕ} (hok : net.Ok n) {preLo preUp x : Vec K}
    {o : Vec K × Vec K} (h : outputBoundsIA net preLo preUp = some o)
    (hp : InBox preLo preUp (preacts net.hidden x).flatten) : InBox o.1 o.2 (net.eval x) := by
  unfold outputBoundsIA at h
  split at h
  · cases h
  · rename_i l a hla
    obtain ⟨e1, e2⟩ := lastPre hok.1 hla x
    have hlen : (preacts net.hidden x).flatten.length = numUnits net.hidden :=
      length_preacts_flatten hok.1 x
    have hne : net.hidden ≠ [] := by intro e; rw [e] at hla; simp at hla
    have hlo := lastOff_add hok.1 hne
    have s1 := inBox_take (inBox_drop hp (lastOff net.hidden)) l.W.length
    rw [List.take_of_length_le (l := List.drop _ (preacts net.hidden x).flatten)
      (by simp only [List.length_drop]; omega)] at s1
    have s2 := propagateAct_sound a s1
    rw [← e1] at s2
    exact rangeIA_sound (x := hiddenOut net.hidden x) h s2

theorem outputBoundsIA_isSome {net : Net K} {n : ℕ} (hok : net.Ok n) {preLo preUp : Vec K}
    (hne : net.hidden ≠ []) (h1 : preLo.length = numUnits net.hidden)
    (h2 : preUp.length = numUnits net.hidden) : ∃ o, outputBoundsIA net preLo preUp = some o := by
  unfold outputBoundsIA
  obtain ⟨p, hp⟩ : ∃ p, net.hidden.getLast? = some p := by
    cases h : net.hidden.getLast? with
    | none => exact absurd (List.getLast?_eq_none_iff.1 h) hne
    | some p => exact ⟨p, rfl⟩
  obtain ⟨l, a⟩ := p
  obtain ⟨-, e2⟩ := lastPre hok.1 hp []
  have hlo := lastOff_add hok.1 hne
  rw [hp]
  simp only
  obtain ⟨q1, q2⟩ := length_propagateAct a (slice preLo (lastOff net.hidden) l.W.length)
    (slice preUp (lastOff net.hidden) l.W.length) net.last.inF
    (by simp [slice, h1]; omega) (by simp [slice, h2]; omega)
  obtain ⟨o, ho, -⟩ := rangeIA_isSome hok.2 q1 q2
  exact ⟨o, ho⟩

/-! ### Bounds by optimisation -/

theorem blendLo_sound (m ia p : K) (h1 : m ≤ p) (h2 : ia ≤ p) : blendLo m ia ≤ p := by
  unfold blendLo
  split
  · exact h2
  · split
    · have := min_le_right ia 0
      linarith
    · linarith

theorem blendUp_sound (m ia p : K) (h1 : p ≤ m) (h2 : p ≤ ia) : p ≤ blendUp m ia := by
  unfold blendUp
  split
  · exact h2
  · split
    · rename_i hm
      have : p ≤ min ia 0 := le_min h2 (le_trans h1 hm)
      linarith
    · linarith

/-- The activation of a unit, choosing the binary that every bound allows. -/
theorem unitOk_exists (a : Act K) (lo up p : K) (h1 : lo ≤ p) (h2 : p ≤ up) :
    ∃ β, (β = 0 ∨ β = 1) ∧ NeuronSpec a lo up p (a.f p) β := by
  by_cases hp : 0 ≤ p
  · by_cases h0 : lo < 0 ∧ up ≤ 0
    · have : p = 0 := le_antisymm (le_trans h2 h0.2) hp
      exact ⟨0, Or.inl rfl, rfl, Or.inr ⟨h1, h2, fun h => absurd h zero_ne_one, fun _ => this.le,
        fun h => absurd h (not_le.2 h0.1), fun _ _ => rfl⟩⟩
    · exact ⟨1, Or.inr rfl, rfl, Or.inr ⟨h1, h2, fun _ => hp, fun h => absurd h one_ne_zero,
        fun _ => rfl, fun h h' => absurd ⟨h, h'⟩ h0⟩⟩
  · have hp := not_le.1 hp
    have hl : lo < 0 := lt_of_le_of_lt h1 hp
    exact ⟨0, Or.inl rfl, rfl, Or.inr ⟨h1, h2, fun h => absurd h zero_ne_one, fun _ => hp.le,
        fun h => absurd h (not_le.2 hl), fun _ _ => rfl⟩⟩

theorem binVal_of_bin (relaxed : Bool) (β : K) (h : β = 0 ∨ β = 1) : BinVal relaxed β := by
  cases relaxed
  · exact h
  · rcases h with rfl | rfl <;> simp [BinVal]

/-- A vector picking a value for every index. -/
theorem exists_vec (n : ℕ) (P : ℕ → K → Prop) (h : ∀ j, j < n → ∃ b, P j b) :
    ∃ v : Vec K, v.length = n ∧ ∀ j, j < n → P j (v.getD j 0) := by
  classical
  refine ⟨(List.range n).map fun j => if hj : ∃ b, P j b then hj.choose else 0, by simp,
    fun j hj => ?_⟩
  rw [getD_range_map _ _ _ hj, dif_pos (h j hj)]
  exact (h j hj).choose_spec

/-- The genuine unit outputs are feasible for the program used to compute bounds. -/
theorem progLayers_true (relaxed : Bool) {m : ℕ} : ∀ (hs : List (Lin K × Act K)) (k : ℕ)
    (x lo up : Vec K), HidOk k hs m → InBox lo up (preacts hs x).flatten →
    ∃ zs bs, ProgLayers relaxed hs x zs bs lo up (hiddenOut hs x) := by
  intro hs
  induction hs with
  | nil => intro k x lo up _ _; exact ⟨[], [], rfl⟩
  | cons p rest ih =>
    obtain ⟨l, a⟩ := p
    intro k x lo up hok hb
    obtain ⟨hk, hl, hrest⟩ := hok
    have hle := Lin.length_eval hl x
    simp only [preacts, List.flatten_cons] at hb
    have hd := inBox_drop hb l.W.length
    rw [List.drop_left' hle] at hd
    obtain ⟨zs, bs, hzb⟩ := ih _ _ _ _ hrest hd
    have hpre : ∀ j, j < l.W.length → ∃ β, (β = 0 ∨ β = 1) ∧ NeuronSpec a (lo.getD j 0)
        (up.getD j 0) ((l.eval x).getD j 0) (a.f ((l.eval x).getD j 0)) β := by
      intro j hj
      have := hb.2.2 j (by rw [List.length_append]; omega)
      rw [getD_append_lt _ _ _ _ (by omega)] at this
      exact unitOk_exists _ _ _ _ this.1 this.2
    obtain ⟨b, hbl, hb2⟩ := exists_vec _ _ hpre
    refine ⟨_ :: zs, b :: bs, (l.eval x).map a.f, b, zs, bs, rfl, rfl, by simp [hle], hbl, ?_, hzb⟩
    intro j hj
    obtain ⟨q1, q2⟩ := hb2 j hj
    refine ⟨binVal_of_bin _ _ q1, ?_⟩
    have e : ∀ v : Vec K, (slice v 0 l.W.length).getD j 0 = v.getD j 0 := by
      intro v; rw [slice_getD _ _ _ _ hj]; simp
    rw [e, e]
    obtain ⟨c, hc⟩ := neuronCons_isSome (l.W.getD j [])
      ((l.bias.getD (zeros l.W.length)).getD j 0) a (lo.getD j 0) (up.getD j 0)
    refine ⟨c, hc, (neuronCons_holds hc q1).2 ?_⟩
    rw [getD_map_f _ _ _ (by omega)]
    rw [Lin.getD_eval hl] at q2 ⊢
    exact q2

theorem preacts_append (hs : List (Lin K × Act K)) (l : Lin K) (a : Act K) (x : Vec K) :
    preacts (hs ++ [(l, a)]) x = preacts hs x ++ [l.eval (hiddenOut hs x)] ∧
      hiddenOut (hs ++ [(l, a)]) x = (l.eval (hiddenOut hs x)).map a.f := by
  induction hs generalizing x with
  | nil => simp [preacts, hiddenOut]
  | cons p rest ih =>
    obtain ⟨l', a'⟩ := p
    simp [preacts, hiddenOut, ih]

theorem hidOk_append {k m : ℕ} {hs : List (Lin K × Act K)} {l : Lin K} {a : Act K}
    (h : HidOk k hs m) (h2 : l.inF = m) (hl : l.Ok) : HidOk k (hs ++ [(l, a)]) l.W.length := by
  induction hs generalizing k with
  | nil =>
    have : k = m := h
    exact ⟨by omega, hl, rfl⟩
  | cons p rest ih =>
    obtain ⟨l', a'⟩ := p
    exact ⟨h.1, h.2.1, ih h.2.2⟩

theorem layerOpt_sound {relaxed iaMip : Bool} {net : Net K} {xlo xup : Vec K} {opt : Opt K}
    (hopt : OptValid relaxed net xlo xup opt) {done : List (Lin K × Act K)}
    {preLo preUp lo up x : Vec K}
    {l : Lin K} {k : ℕ} {pre : Vec K × Vec K} (hat : LayerAt net done l)
    (h : layerOpt opt iaMip done preLo preUp l lo up = some pre) (hdone : HidOk k done l.inF)
    (hl : l.Ok) (hx : InBox xlo xup x) (hp : InBox preLo preUp (preacts done x).flatten)
    (hi : InBox lo up (hiddenOut done x)) :
    InBox pre.1 pre.2 (l.eval (hiddenOut done x)) := by
  obtain ⟨zs, bs, hfeas⟩ := progLayers_true relaxed done k x preLo preUp hdone hp
  have hv := fun j hj => hopt done preLo preUp l j x zs bs _ hat hj hx hfeas
  have hle := Lin.length_eval hl (hiddenOut done x)
  unfold layerOpt at h
  simp only at h
  split at h
  · obtain ⟨ia, hia, rfl⟩ := Option.map_eq_some_iff.1 h
    have hs : InBox ia.1 ia.2 (l.eval (hiddenOut done x)) := rangeIA_sound hia hi
    have l1 : ia.1.length = l.W.length := by rw [← hs.1, hle]
    have l2 : ia.2.length = l.W.length := by rw [← hs.2.1, hle]
    refine ⟨by simp [hle, l1], by simp [hle, l2], fun j hj => ?_⟩
    have hj' : j < l.W.length := by omega
    have b1 := hs.2.2 j hj
    have b2 := hv j hj'
    rw [← Lin.getD_eval hl] at b2
    have g1 : (List.zipWith blendLo (((List.range l.W.length).map (opt done preLo preUp l)).map
        Prod.fst) ia.1).getD j 0 = blendLo (opt done preLo preUp l j).1 (ia.1.getD j 0) := by
      simp [List.getD, hj', l1]
    have g2 : (List.zipWith blendUp (((List.range l.W.length).map (opt done preLo preUp l)).map
        Prod.snd) ia.2).getD j 0 = blendUp (opt done preLo preUp l j).2 (ia.2.getD j 0) := by
      simp [List.getD, hj', l2]
    rw [g1, g2]
    exact ⟨blendLo_sound _ _ _ b2.1 b1.1, blendUp_sound _ _ _ b2.2 b1.2⟩
  · cases h
    refine ⟨by simp [hle], by simp [hle], fun j hj => ?_⟩
    have hj' : j < l.W.length := by omega
    have b2 := hv j hj'
    rw [← Lin.getD_eval hl] at b2
    have g1 : (((List.range l.W.length).map (opt done preLo preUp l)).map
        Prod.fst).getD j 0 = (opt done preLo preUp l j).1 := by
      simp [List.getD, hj']
    have g2 : (((List.range l.W.length).map (opt done preLo preUp l)).map
        Prod.snd).getD j 0 = (opt done preLo preUp l j).2 := by
      simp [List.getD, hj']
    rw [g1, g2]
    exact b2

theorem postacts_append (hs : List (Lin K × Act K)) (l : Lin K) (a : Act K) (x : Vec K) :
    postacts (hs ++ [(l, a)]) x = postacts hs x ++ [(l.eval (hiddenOut hs x)).map a.f] := by
  induction hs generalizing x with
  | nil => simp [postacts, hiddenOut]
  | cons p rest ih =>
    obtain ⟨l', a'⟩ := p
    simp [postacts, hiddenOut, ih]

theorem layerBoundOpt_sound {relaxed iaMip : Bool} {net : Net K} {xlo xup : Vec K} {opt : Opt K}
    (hopt : OptValid relaxed net xlo xup opt) {k m : ℕ} {x : Vec K} (hx : InBox xlo xup x)
    {o : LayerBounds K} :
    ∀ (rest done : List (Lin K × Act K)) (q : ℕ) (acc : LayerBounds K) (lo up : Vec K),
      net.hidden = done ++ rest →
      layerBoundOpt opt iaMip done acc lo up rest = some o →
      HidOk k done q → HidOk q rest m → InBox acc.preLo acc.preUp (preacts done x).flatten →
      InBox acc.postLo acc.postUp (postacts done x).flatten →
      InBox lo up (hiddenOut done x) →
      InBox o.preLo o.preUp (preacts net.hidden x).flatten ∧
        InBox o.postLo o.postUp (postacts net.hidden x).flatten := by
  intro rest
  induction rest with
  | nil =>
    intro done q acc lo up hn h _ _ hp hpost _
    cases h
    rw [hn]
    simpa using ⟨hp, hpost⟩
  | cons p rest ih =>
    obtain ⟨l, a⟩ := p
    intro done q acc lo up hn h hd hr hp hpost hi
    obtain ⟨hk, hl, hrest⟩ := hr
    subst hk
    unfold layerBoundOpt at h
    split at h
    · cases h
    · rename_i pre hpre
      have s := layerOpt_sound hopt (Or.inl ⟨a, rest, hn⟩) hpre hd hl hx hp hi
      have s2 := propagateAct_sound a s
      obtain ⟨e1, e2⟩ := preacts_append done l a x
      exact ih (done ++ [(l, a)]) l.W.length _ _ _ (by simp [hn]) h (hidOk_append hd rfl hl) hrest
        (by rw [e1, List.flatten_append]; simpa using inBox_append hp s)
        (by rw [postacts_append, List.flatten_append]; simpa using inBox_append hpost s2)
        (by rw [e2]; exact s2)

/-- Soundness of a bound propagation method. -/
def MethodValid (net : Net K) (xlo xup : Vec K) : Method K → Prop
  | .ia => True
  | .opt o _ => ∃ relaxed, OptValid relaxed net xlo xup o

theorem layerBound_sound {m : Method K} {net : Net K} {xs : ℕ} {xlo xup x : Vec K}
    {B : LayerBounds K} (hok : net.Ok xs) (hm : MethodValid net xlo xup m)
    (h : layerBound m net.hidden xlo xup = some B) (hx : InBox xlo xup x) :
    InBox B.preLo B.preUp (preacts net.hidden x).flatten ∧
      InBox B.postLo B.postUp (postacts net.hidden x).flatten := by
  cases m with
  | ia => exact layerBoundIA_sound h hx
  | opt o f =>
    obtain ⟨r, hr⟩ := hm
    exact layerBoundOpt_sound hr (k := xs) hx net.hidden [] xs _ _ _ rfl h rfl hok.1 inBox_nil
      inBox_nil hx

theorem blendOutLo_sound (m ia p : K) (h1 : m ≤ p) (h2 : ia ≤ p) : blendOutLo m ia ≤ p := by
  unfold blendOutLo
  split
  · exact h2
  · linarith

theorem blendOutUp_sound (m ia p : K) (h1 : p ≤ m) (h2 : p ≤ ia) : p ≤ blendOutUp m ia := by
  unfold blendOutUp
  split
  · exact h2
  · linarith

theorem outputBounds_sound {m : Method K} {net : Net K} {xs : ℕ} {xlo xup x preLo preUp : Vec K}
    {o : Vec K × Vec K} (hok : net.Ok xs) (hm : MethodValid net xlo xup m)
    (h : outputBounds m net preLo preUp = some o) (hx : InBox xlo xup x)
    (hp : InBox preLo preUp (preacts net.hidden x).flatten) : InBox o.1 o.2 (net.eval x) := by
  cases m with
  | ia => exact outputBoundsIA_sound hok h hp
  | opt op f =>
    obtain ⟨r, hr⟩ := hm
    obtain ⟨zs, bs, hfeas⟩ := progLayers_true r net.hidden xs x preLo preUp hok.1 hp
    have hv := fun j hj => hr net.hidden preLo preUp net.last j x zs bs _ (Or.inr ⟨rfl, rfl⟩) hj hx
      hfeas
    have hle := Lin.length_eval hok.2 (hiddenOut net.hidden x)
    simp only [outputBounds, outputBoundsOpt] at h
    split at h
    · obtain ⟨ia, hia, rfl⟩ := Option.map_eq_some_iff.1 h
      have hs := outputBoundsIA_sound hok hia hp
      unfold Net.eval at hs ⊢
      have l1 : ia.1.length = net.last.W.length := by rw [← hs.1, hle]
      have l2 : ia.2.length = net.last.W.length := by rw [← hs.2.1, hle]
      refine ⟨by simp [hle, l1], by simp [hle, l2], fun j hj => ?_⟩
      have hj' : j < net.last.W.length := by omega
      have b1 := hs.2.2 j hj
      have b2 := hv j hj'
      rw [← Lin.getD_eval hok.2] at b2
      have g1 : (List.zipWith blendOutLo (((List.range net.last.W.length).map
          (op net.hidden preLo preUp net.last)).map Prod.fst) ia.1).getD j 0
          = blendOutLo (op net.hidden preLo preUp net.last j).1 (ia.1.getD j 0) := by
        simp [List.getD, hj', l1]
      have g2 : (List.zipWith blendOutUp (((List.range net.last.W.length).map
          (op net.hidden preLo preUp net.last)).map Prod.snd) ia.2).getD j 0
          = blendOutUp (op net.hidden preLo preUp net.last j).2 (ia.2.getD j 0) := by
        simp [List.getD, hj', l2]
      rw [g1, g2]
      exact ⟨blendOutLo_sound _ _ _ b2.1 b1.1, blendOutUp_sound _ _ _ b2.2 b1.2⟩
    · cases h
      unfold Net.eval
      refine ⟨by simp [hle], by simp [hle], fun j hj => ?_⟩
      have hj' : j < net.last.W.length := by omega
      have b2 := hv j hj'
      rw [← Lin.getD_eval hok.2] at b2
      have g1 : (((List.range net.last.W.length).map (op net.hidden preLo preUp net.last)).map
          Prod.fst).getD j 0 = (op net.hidden preLo preUp net.last j).1 := by
        simp [List.getD, hj']
      have g2 : (((List.range net.last.W.length).map (op net.hidden preLo preUp net.last)).map
          Prod.snd).getD j 0 = (op net.hidden preLo preUp net.last j).2 := by
        simp [List.getD, hj']
      rw [g1, g2]
      exact b2

/-- With integer binaries the program has exactly one output per input. -/
theorem progLayers_out {m : ℕ} : ∀ (hs : List (Lin K × Act K)) (k : ℕ) (x : Vec K)
    (zs bs : List (Vec K)) (lo up out : Vec K), HidOk k hs m →
    ProgLayers false hs x zs bs lo up out → out = hiddenOut hs x := by
  intro hs
  induction hs with
  | nil => intro k x zs bs lo up out _ h; exact h
  | cons p rest ih =>
    obtain ⟨l, a⟩ := p
    intro k x zs bs lo up out hok h
    obtain ⟨hk, hl, hrest⟩ := hok
    obtain ⟨z, b, zs', bs', -, -, hz, hb, hrows, htail⟩ := h
    have hle := Lin.length_eval hl x
    have : z = (l.eval x).map a.f := by
      apply vec_ext (by simp [hz, hle])
      intro j hj
      obtain ⟨hbin, c, hc, hh⟩ := hrows j (by omega)
      have := (neuronCons_holds (zc := x) hc hbin).1 hh
      rw [getD_map_f _ _ _ (by omega), Lin.getD_eval hl]
      exact this.1
    rw [ih _ _ _ _ _ _ _ hrest htail, this]
    rfl

end NNL.Model
