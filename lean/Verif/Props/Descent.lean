import Verif.Spec.Descent
import Verif.Props.Trainer

/-!
# Descent on samples: C66 to C69
-/

set_option linter.unusedSectionVars false

namespace NNL.Props

open NNL NNL.Spec NNL.Model

variable {K : Type} [Field K] [LinearOrder K] [IsStrictOrderedRing K] {W : Type}

/-! ### Saving and restoring the parameters -/

@[simp] theorem length_loadCells : ∀ (cells : List (Vec K)) (is : List ℕ) (vs : List (Vec K)),
    (loadCells cells is vs).length = cells.length
  | _, [], _ => by simp [loadCells]
  | _, _ :: _, [] => by simp [loadCells]
  | cells, i :: is, v :: vs => by rw [loadCells, length_loadCells, List.length_set]

theorem loadCells_other : ∀ (cells : List (Vec K)) (is : List ℕ) (vs : List (Vec K)) (j : ℕ), j ∉ is →
    (loadCells cells is vs).getD j [] = cells.getD j []
  | _, [], _, _, _ => by simp [loadCells]
  | _, _ :: _, [], _, _ => by simp [loadCells]
  | cells, i :: is, v :: vs, j, h => by
    have h1 : j ≠ i := fun e => h (by simp [e])
    have h2 : j ∉ is := fun e => h (by simp [e])
    rw [loadCells, loadCells_other _ is vs j h2, List.getD, List.getD, List.getElem?_set_ne (Ne.symm h1)]

theorem loadCells_map : ∀ (cells : List (Vec K)) (is : List ℕ) (vs : List (Vec K)), is.Nodup →
    (∀ i ∈ is, i < cells.length) → vs.length = is.length →
    is.map (fun i => (loadCells cells is vs).getD i []) = vs
  | _, [], [], _, _, _ => rfl
  | cells, i :: is, v :: vs, hn, hl, hv => by
    have hn' := List.nodup_cons.1 hn
    have ih := loadCells_map (cells.set i v) is vs hn'.2 (fun j hj => by simpa using hl j (by simp [hj])) (by simpa using hv)
    simp only [List.map_cons, loadCells, ih, List.cons.injEq, and_true]
    rw [loadCells_other _ _ _ _ hn'.1, List.getD, List.getElem?_set_self (hl i (by simp))]
    rfl

theorem loadCells_map_other (cells : List (Vec K)) (is js : List ℕ) (vs : List (Vec K)) (h : ∀ j ∈ js, j ∉ is) :
    js.map (fun i => (loadCells cells is vs).getD i []) = js.map (fun i => cells.getD i []) :=
  List.map_congr_left fun j hj => loadCells_other _ _ _ _ (h j hj)

theorem getD_append_lt {α : Type*} (l r : List α) (d : α) (i : ℕ) (h : i < l.length) :
    (l ++ r).getD i d = l.getD i d := by
  rw [List.getD, List.getD, List.getElem?_append_left h]

theorem getD_append_len {α : Type*} (l : List α) (d a : α) : (l ++ [a]).getD l.length d = a := by
  rw [List.getD, List.getElem?_append_right le_rfl]
  simp

/-- Restoring what was saved from tensors with the same references gives the saved values back. -/
theorem put_get {t s : Tensors K} (ht : Separate t) (hr : SameRefs t s) : (t.put s.get).get = s.get := by
  obtain ⟨r1, r2, r3⟩ := hr
  have n1 := List.nodup_append.1 ht.nodup
  have n2 := List.nodup_append.1 n1.1
  have lnet : ∀ i ∈ t.net, i < t.cells.length := fun i hi => ht.lt i (by simp [hi])
  have lctrl : ∀ i ∈ t.ctrl, i < t.cells.length := fun i hi => ht.lt i (by simp [hi])
  have dj : ∀ j ∈ t.net, j ∉ t.ctrl := fun j hj h => n2.2.2 j hj j h rfl
  have e1 : s.get.net.length = t.net.length := by simp [Tensors.get, r1]
  have e2 : s.get.ctrl.length = t.ctrl.length := by simp [Tensors.get, r2]
  cases hv : t.rvar with
  | none =>
    have hs : s.get.rvar = none := by simp [Tensors.get, r3, hv]
    have : t.put s.get = { t with cells := loadCells (loadCells t.cells t.net s.get.net) t.ctrl s.get.ctrl } := by
      simp [Tensors.put, Tensors.setR, hv]
    rw [this]
    show (⟨_, _, _⟩ : ParamVals K) = s.get
    have : s.get = ⟨s.get.net, s.get.ctrl, s.get.rvar⟩ := rfl
    rw [this]
    simp only [ParamVals.mk.injEq]
    refine ⟨?_, ?_, ?_⟩
    · rw [loadCells_map_other _ _ _ _ dj]
      exact loadCells_map _ _ _ n2.1 lnet e1
    · exact loadCells_map _ _ _ n2.2.1 (by simpa using lctrl) e2
    · rw [hs, hv]
      rfl
  | some r =>
    obtain ⟨u, hu⟩ : ∃ u, s.get.rvar = some u := ⟨s.cells.getD r [], by simp [Tensors.get, r3, hv]⟩
    have : t.put s.get = { t with cells := loadCells (loadCells t.cells t.net s.get.net ++ [u]) t.ctrl s.get.ctrl,
                                  rvar := some t.cells.length } := by
      simp [Tensors.put, Tensors.setR, hv, hu]
    rw [this]
    have hnc : t.cells.length ∉ t.ctrl := fun h => lt_irrefl _ (lctrl _ h)
    show (⟨_, _, _⟩ : ParamVals K) = s.get
    have : s.get = ⟨s.get.net, s.get.ctrl, s.get.rvar⟩ := rfl
    rw [this]
    simp only [ParamVals.mk.injEq]
    refine ⟨?_, ?_, ?_⟩
    · rw [loadCells_map_other _ _ _ _ dj]
      conv_rhs => rw [← loadCells_map t.cells t.net s.get.net n2.1 lnet e1]
      exact List.map_congr_left fun i hi => getD_append_lt _ _ _ _ (by simpa using lnet i hi)
    · exact loadCells_map _ _ _ n2.2.1 (fun i hi => by
        have := lctrl i hi
        simp
        omega) e2
    · rw [hu, Option.map_some, loadCells_other _ _ _ _ hnc]
      have := getD_append_len (loadCells t.cells t.net s.get.net) [] u
      rw [length_loadCells] at this
      rw [this]

theorem separate_of_same {t s : Tensors K} (ht : Separate t) (h : SameRefs t s) (hl : s.cells.length = t.cells.length) :
    Separate s := by
  obtain ⟨r1, r2, r3⟩ := h
  constructor
  · rw [r1, r2, r3]
    exact ht.nodup
  · rw [r1, r2, r3, hl]
    exact ht.lt

theorem put_net (t : Tensors K) (p : ParamVals K) : (t.put p).net = t.net ∧ (t.put p).ctrl = t.ctrl := by
  unfold Tensors.put Tensors.setR
  cases t.rvar <;> cases p.rvar <;> exact ⟨rfl, rfl⟩

/-! ### C66 -/

theorem visited_shift (epoch : ℕ → Tensors K → Tensors K) (N : ℕ) (t : Tensors K) (k : ℕ) :
    visited epoch (N + 1) t (k + 1) = visited epoch N (epoch N t) k := by
  induction k with
  | zero => simp [visited]
  | succ k ih =>
    rw [visited, ih, visited]
    congr 1
    omega

theorem visited_same {T : List ℕ} {epoch : ℕ → Tensors K → Tensors K} (he : Trains T epoch) (N : ℕ) (t : Tensors K)
    (k : ℕ) : SameRefs t (visited epoch N t k) ∧ (visited epoch N t k).cells.length = t.cells.length := by
  induction k with
  | zero => exact ⟨⟨rfl, rfl, rfl⟩, rfl⟩
  | succ k ih =>
    obtain ⟨⟨a, b, c⟩, d⟩ := ih
    obtain ⟨a', b', c'⟩ := he.refs (N - 1 - k) (visited epoch N t k)
    exact ⟨⟨a'.trans a, b'.trans b, c'.trans c⟩, (he.len _ _).trans d⟩

/-- What the loop leaves: either it stopped at the first visited point where both losses are zero, or the parameters are
those of the best one among the given ones and the visited ones. -/
theorem batchLoop_spec {T : List ℕ} {epoch : ℕ → Tensors K → Tensors K} (he : Trains T epoch)
    (loss : ParamVals K → K × K) (n : ℕ) : ∀ (t s : Tensors K), Separate t → SameRefs t s →
    (∃ k, k < n ∧ batchLoop epoch loss n t s.get (total (loss s.get)) = visited epoch n t (k + 1) ∧
      loss (visited epoch n t (k + 1)).get = (0, 0)) ∨
    ∃ b : Tensors K, (b = s ∨ ∃ k, k < n ∧ b = visited epoch n t (k + 1)) ∧ SameRefs t b ∧
      batchLoop epoch loss n t s.get (total (loss s.get)) = (visited epoch n t n).put b.get ∧
      (batchLoop epoch loss n t s.get (total (loss s.get))).get = b.get ∧
      total (loss b.get) ≤ total (loss s.get) ∧
      ∀ k, k < n → total (loss b.get) ≤ total (loss (visited epoch n t (k + 1)).get) := by
  induction n with
  | zero =>
    intro t s ht hs
    exact Or.inr ⟨s, Or.inl rfl, hs, rfl, put_get ht hs, le_rfl, fun k hk => absurd hk (by omega)⟩
  | succ n ih =>
    intro t s ht hs
    have h1 : SameRefs t (epoch n t) := he.refs n t
    have ht1 : Separate (epoch n t) := separate_of_same ht h1 (he.len n t)
    have back : ∀ {u : Tensors K}, SameRefs (epoch n t) u → SameRefs t u := fun ⟨a, b, c⟩ =>
      ⟨a.trans h1.1, b.trans h1.2.1, c.trans h1.2.2⟩
    have hvn : visited epoch (n + 1) t (n + 1) = visited epoch n (epoch n t) n := visited_shift epoch n t n
    have hv1 : visited epoch (n + 1) t 1 = epoch n t := by simp [visited]
    unfold batchLoop
    simp only
    split_ifs with hz hb
    · left
      refine ⟨0, by omega, hv1.symm, ?_⟩
      rw [hv1]
      exact Prod.ext hz.1 hz.2
    · rcases ih (epoch n t) (epoch n t) ht1 ⟨rfl, rfl, rfl⟩ with ⟨k, hk, e, hl⟩ | ⟨b, hb', hr, e, eg, hle, hall⟩
      · left
        refine ⟨k + 1, by omega, ?_, ?_⟩
        · rw [visited_shift]
          exact e
        · rw [visited_shift]
          exact hl
      · right
        refine ⟨b, ?_, back hr, ?_, eg, ?_, ?_⟩
        · right
          rcases hb' with rfl | ⟨k, hk, rfl⟩
          · exact ⟨0, by omega, hv1.symm⟩
          · exact ⟨k + 1, by omega, (visited_shift epoch n t (k + 1)).symm⟩
        · rw [hvn]
          exact e
        · exact hle.trans hb.le
        · intro k hk
          cases k with
          | zero => rw [hv1]; exact hle
          | succ k =>
            rw [visited_shift]
            exact hall k (by omega)
    · rcases ih (epoch n t) s ht1 ⟨hs.1.trans h1.1.symm, hs.2.1.trans h1.2.1.symm, hs.2.2.trans h1.2.2.symm⟩ with
        ⟨k, hk, e, hl⟩ | ⟨b, hb', hr, e, eg, hle, hall⟩
      · left
        refine ⟨k + 1, by omega, ?_, ?_⟩
        · rw [visited_shift]
          exact e
        · rw [visited_shift]
          exact hl
      · right
        refine ⟨b, ?_, back hr, ?_, eg, hle, ?_⟩
        · rcases hb' with hb' | ⟨k, hk, rfl⟩
          · exact Or.inl hb'
          · exact Or.inr ⟨k + 1, by omega, (visited_shift epoch n t (k + 1)).symm⟩
        · rw [hvn]
          exact e
        · intro k hk
          cases k with
          | zero => rw [hv1]; exact hle.trans (not_lt.1 hb)
          | succ k =>
            rw [visited_shift]
            exact hall k (by omega)

/-- C66. The parameters left by `_batch_descent_on_samples` are parameters that were visited, and no visited ones (the
initial ones included) have a smaller loss on all samples. -/
theorem C66_descent_best {T : List ℕ} {epoch : ℕ → Tensors K → Tensors K} (he : Trains T epoch)
    (loss : ParamVals K → K × K) (h0 : ∀ p, 0 ≤ (loss p).1 ∧ 0 ≤ (loss p).2) (N : ℕ) (t : Tensors K) (ht : Separate t) :
    (∃ k, k ≤ N ∧ (batchDescent epoch loss N t).get = (visited epoch N t k).get) ∧
    ∀ j, j ≤ N → total (loss (batchDescent epoch loss N t).get) ≤ total (loss (visited epoch N t j).get) := by
  unfold batchDescent
  rcases batchLoop_spec he loss N t t ht ⟨rfl, rfl, rfl⟩ with ⟨k, hk, e, hl⟩ | ⟨b, hb, hr, e, eg, hle, hall⟩
  · rw [show (loss t.get).1 + (loss t.get).2 = total (loss t.get) from rfl, e]
    refine ⟨⟨k + 1, by omega, rfl⟩, fun j _ => ?_⟩
    rw [hl]
    have := h0 (visited epoch N t j).get
    simp only [total, add_zero]
    linarith [this.1, this.2]
  · rw [show (loss t.get).1 + (loss t.get).2 = total (loss t.get) from rfl, eg]
    refine ⟨?_, fun j hj => ?_⟩
    · rcases hb with rfl | ⟨k, hk, rfl⟩
      · exact ⟨0, by omega, rfl⟩
      · exact ⟨k + 1, by omega, rfl⟩
    · cases j with
      | zero => exact hle
      | succ j => exact hall j (by omega)

/-- C66. The loss on all samples never increases. -/
theorem C66_descent_no_increase {T : List ℕ} {epoch : ℕ → Tensors K → Tensors K} (he : Trains T epoch)
    (loss : ParamVals K → K × K) (h0 : ∀ p, 0 ≤ (loss p).1 ∧ 0 ≤ (loss p).2) (N : ℕ) (t : Tensors K) (ht : Separate t) :
    total (loss (batchDescent epoch loss N t).get) ≤ total (loss t.get) :=
  (C66_descent_best he loss h0 N t ht).2 0 (by omega)

/-- C66. The descent ends early, at the first parameters with both losses zero, if there are any. -/
theorem C66_descent_zero {T : List ℕ} {epoch : ℕ → Tensors K → Tensors K} (he : Trains T epoch)
    (loss : ParamVals K → K × K) (h0 : ∀ p, 0 ≤ (loss p).1 ∧ 0 ≤ (loss p).2) (N : ℕ) (t : Tensors K) (ht : Separate t)
    (k : ℕ) (hk : k < N) (hz : loss (visited epoch N t (k + 1)).get = (0, 0)) :
    loss (batchDescent epoch loss N t).get = (0, 0) := by
  have h := (C66_descent_best he loss h0 N t ht).2 (k + 1) (by omega)
  have h1 := h0 (batchDescent epoch loss N t).get
  rw [hz] at h
  simp only [total, add_zero] at h
  exact Prod.ext (by linarith [h1.1, h1.2]) (by linarith [h1.1, h1.2])

/-! ### C67 -/

/-- C67. The networks stay the tensors that they were (those that the optimiser has). -/
theorem C67_networks_same {T : List ℕ} {epoch : ℕ → Tensors K → Tensors K} (he : Trains T epoch)
    (loss : ParamVals K → K × K) (N : ℕ) (t : Tensors K) (ht : Separate t) :
    (batchDescent epoch loss N t).net = t.net ∧ (batchDescent epoch loss N t).ctrl = t.ctrl := by
  unfold batchDescent
  rw [show (loss t.get).1 + (loss t.get).2 = total (loss t.get) from rfl]
  rcases batchLoop_spec he loss N t t ht ⟨rfl, rfl, rfl⟩ with ⟨k, hk, e, hl⟩ | ⟨b, hb, hr, e, eg, hle, hall⟩
  · rw [e]
    have := (visited_same he N t (k + 1)).1
    exact ⟨this.1, this.2.1⟩
  · rw [e]
    have := (visited_same he N t N).1
    have h2 := put_net (visited epoch N t N) b.get
    exact ⟨h2.1.trans this.1, h2.2.trans this.2.1⟩

theorem put_some {t : Tensors K} {r : ℕ} (h : t.rvar = some r) {p : ParamVals K} {u : Vec K} (hp : p.rvar = some u) :
    (t.put p).rvar = some t.cells.length ∧ (t.put p).cells.length = t.cells.length + 1 := by
  simp [Tensors.put, Tensors.setR, h, hp]

theorem put_none {t : Tensors K} (h : t.rvar = none) (p : ParamVals K) :
    (t.put p).rvar = none ∧ (t.put p).cells.length = t.cells.length := by
  simp [Tensors.put, Tensors.setR, h]

theorem put_separate {t s : Tensors K} (ht : Separate t) (hr : SameRefs t s) : Separate (t.put s.get) := by
  obtain ⟨p1, p2⟩ := put_net t s.get
  cases hv : t.rvar with
  | none =>
    obtain ⟨q1, q2⟩ := put_none hv s.get
    constructor
    · rw [p1, p2, q1, ← hv]
      exact ht.nodup
    · rw [p1, p2, q1, q2, ← hv]
      exact ht.lt
  | some r =>
    obtain ⟨q1, q2⟩ := put_some hv (p := s.get) (u := s.cells.getD r []) (by simp [Tensors.get, hr.2.2, hv])
    have hl : ∀ i ∈ t.net ++ t.ctrl, i < t.cells.length := fun i hi => ht.lt i (by simp at hi ⊢; tauto)
    constructor
    · rw [p1, p2, q1]
      rw [List.nodup_append]
      refine ⟨(List.nodup_append.1 ht.nodup).1, by simp, fun a ha b hb => ?_⟩
      simp only [Option.toList_some, List.mem_singleton] at hb
      have := hl a ha
      omega
    · rw [p1, p2, q1, q2]
      intro i hi
      rw [List.mem_append] at hi
      rcases hi with hi | hi
      · have := hl i hi
        omega
      · simp only [Option.toList_some, List.mem_singleton] at hi
        omega

theorem descent_separate {T : List ℕ} {epoch : ℕ → Tensors K → Tensors K} (he : Trains T epoch)
    (loss : ParamVals K → K × K) (N : ℕ) (t : Tensors K) (ht : Separate t) : Separate (batchDescent epoch loss N t) := by
  unfold batchDescent
  rw [show (loss t.get).1 + (loss t.get).2 = total (loss t.get) from rfl]
  rcases batchLoop_spec he loss N t t ht ⟨rfl, rfl, rfl⟩ with ⟨k, hk, e, hl⟩ | ⟨b, hb, hr, e, eg, hle, hall⟩
  · rw [e]
    have := visited_same he N t (k + 1)
    exact separate_of_same ht this.1 this.2
  · rw [e]
    have := visited_same he N t N
    refine put_separate (separate_of_same ht this.1 this.2) ?_
    exact ⟨hr.1.trans this.1.1.symm, hr.2.1.trans this.1.2.1.symm, hr.2.2.trans this.1.2.2.symm⟩

/-- C67. Unless the descent ends at zero loss, `R_options` holds afterwards a tensor that did not exist before, so an
optimiser on tensors that existed before does not train it. -/
theorem C67_R_rebound {T : List ℕ} {epoch : ℕ → Tensors K → Tensors K} (he : Trains T epoch)
    (loss : ParamVals K → K × K) (N : ℕ) (t : Tensors K) (ht : Separate t) {r : ℕ} (hr : t.rvar = some r)
    (hT : ∀ i ∈ T, i < t.cells.length) (hz : ∀ k, k < N → loss (visited epoch N t (k + 1)).get ≠ (0, 0)) :
    ∃ r', (batchDescent epoch loss N t).rvar = some r' ∧ r' ∉ T := by
  unfold batchDescent
  rw [show (loss t.get).1 + (loss t.get).2 = total (loss t.get) from rfl]
  rcases batchLoop_spec he loss N t t ht ⟨rfl, rfl, rfl⟩ with ⟨k, hk, e, hl⟩ | ⟨b, hb, hs, e, eg, hle, hall⟩
  · exact absurd hl (hz k hk)
  · have hv := visited_same he N t N
    have h1 : (visited epoch N t N).rvar = some r := hv.1.2.2.trans hr
    obtain ⟨q1, -⟩ := put_some h1 (p := b.get) (u := b.cells.getD r []) (by simp [Tensors.get, hs.2.2, hr])
    refine ⟨_, by rw [e]; exact q1, fun h => ?_⟩
    have := hT _ h
    rw [hv.2] at this
    exact lt_irrefl _ this

theorem visited_R {T : List ℕ} {epoch : ℕ → Tensors K → Tensors K} (he : Trains T epoch) (N : ℕ) (t : Tensors K) {r : ℕ}
    (hr : t.rvar = some r) (hT : r ∉ T) (k : ℕ) : (visited epoch N t k).get.rvar = t.get.rvar := by
  have h1 : ∀ k, (visited epoch N t k).cells.getD r [] = t.cells.getD r [] := by
    intro k
    induction k with
    | zero => rfl
    | succ k ih => rw [visited, he.other _ _ _ hT, ih]
  unfold Tensors.get
  simp only [(visited_same he N t k).1.2.2, hr, Option.map_some, h1]

/-- One descent, with an optimiser that does not have the tensor of `R_options`, leaves the value of `R` as it is and the
tensor of `R_options` out of the optimiser. -/
theorem descent_R {T : List ℕ} {epoch : ℕ → Tensors K → Tensors K} (he : Trains T epoch)
    (loss : ParamVals K → K × K) (N : ℕ) (t : Tensors K) (ht : Separate t) {r : ℕ} (hr : t.rvar = some r) (hrT : r ∉ T)
    (hT : ∀ i ∈ T, i < t.cells.length) :
    (batchDescent epoch loss N t).get.rvar = t.get.rvar ∧
    (∃ r', (batchDescent epoch loss N t).rvar = some r' ∧ r' ∉ T) ∧
    ∀ i ∈ T, i < (batchDescent epoch loss N t).cells.length := by
  unfold batchDescent
  rw [show (loss t.get).1 + (loss t.get).2 = total (loss t.get) from rfl]
  rcases batchLoop_spec he loss N t t ht ⟨rfl, rfl, rfl⟩ with ⟨k, hk, e, hl⟩ | ⟨b, hb, hs, e, eg, hle, hall⟩
  · rw [e]
    have hv := visited_same he N t (k + 1)
    refine ⟨visited_R he N t hr hrT _, ⟨r, hv.1.2.2.trans hr, hrT⟩, ?_⟩
    rw [hv.2]
    exact hT
  · have hv := visited_same he N t N
    have h1 : (visited epoch N t N).rvar = some r := hv.1.2.2.trans hr
    obtain ⟨q1, q2⟩ := put_some h1 (p := b.get) (u := b.cells.getD r []) (by simp [Tensors.get, hs.2.2, hr])
    refine ⟨?_, ⟨_, by rw [e]; exact q1, fun h => ?_⟩, ?_⟩
    · rw [eg]
      rcases hb with rfl | ⟨k, hk, rfl⟩
      · rfl
      · exact visited_R he N t hr hrT _
    · have := hT _ h
      rw [hv.2] at this
      exact lt_irrefl _ this
    · rw [e, q2, hv.2]
      intro i hi
      have := hT i hi
      omega

/-- What is true at the beginning and kept by all the calls is true at the end of `train_adversarial`. -/
theorem advLoop_invariant (env : Env W K) (cfg : TrainCfg K) (o : AdvCfg W K) (descend : W → Mat K → Mat K → Option W)
    (P : W → Prop) (h1 : ∀ w s w', env.solvePos w = some (s, w') → P w → P w')
    (h2 : ∀ w s w', env.solveDer w = some (s, w') → P w → P w')
    (h3 : ∀ f, o.noise = some f → ∀ w a, P w → P (f w a).2)
    (h4 : ∀ w p d w', descend w p d = some w' → P w → P w') (n : ℕ) : ∀ (w w' : W) (pos der : Mat K) (rp rd : Vec K)
    (r : AdvRet K), env.advLoop cfg o descend n w pos der rp rd = some (r, w') → P w → P w' := by
  induction n with
  | zero =>
    intro w w' pos der rp rd r h hP
    simp only [Env.advLoop, Option.some.injEq, Prod.mk.injEq] at h
    rw [← h.2]
    exact hP
  | succ n ih =>
    intro w w' pos der rp rd r h hP
    simp only [Env.advLoop, Option.bind_eq_bind, Option.bind_eq_some_iff] at h
    obtain ⟨⟨a, w1⟩, e1, ⟨b, w2⟩, e2, da, e3, h⟩ := h
    have hP2 : P w2 := h2 _ _ _ e2 (h1 _ _ _ e1 hP)
    have hP3 : ∀ q, P (perturbed o.noise w2 q).2 := by
      intro q
      unfold perturbed
      cases hn : o.noise with
      | none => exact hP2
      | some f => exact h3 f hn _ _ hP2
    split_ifs at h
    · simp only [Option.some.injEq, Prod.mk.injEq] at h
      rw [← h.2]
      exact hP3 _
    · simp only [Option.bind_eq_some_iff] at h
      obtain ⟨w3, e4, h⟩ := h
      exact ih _ _ _ _ _ _ _ h (h4 _ _ _ _ e4 (hP3 _))

/-- C67, the failure. `train_adversarial` builds all its optimisers on the tensors `T` found at its start. As soon as
`R_options` holds a tensor outside `T` (after the first restored descent, `C67_R_rebound`), `R` keeps its value until
`train_adversarial` returns, whatever the gradients, samples and solver results are. -/
theorem C67_R_frozen (env : Env (Tensors K) K) (cfg : TrainCfg K) (o : AdvCfg (Tensors K) K) (T : List ℕ)
    (epoch : Mat K → Mat K → ℕ → Tensors K → Tensors K) (he : ∀ p d, Trains T (epoch p d))
    (loss : Mat K → Mat K → ParamVals K → K × K) (N : ℕ)
    (h1 : ∀ w s w', env.solvePos w = some (s, w') → w' = w) (h2 : ∀ w s w', env.solveDer w = some (s, w') → w' = w)
    (h3 : ∀ f, o.noise = some f → ∀ w a, (f w a).2 = w) (t t' : Tensors K) (ht : Separate t) {r : ℕ}
    (hr : t.rvar = some r) (hrT : r ∉ T) (hT : ∀ i ∈ T, i < t.cells.length) (pos der : Mat K) (res : AdvRet K)
    (h : env.trainAdversarial cfg o (fun w p d => some (batchDescent (epoch p d) (loss p d) N w)) t pos der =
      some (res, t')) : t'.get.rvar = t.get.rvar := by
  unfold Env.trainAdversarial at h
  split_ifs at h
  have := advLoop_invariant env cfg o _ (fun w => Separate w ∧ w.get.rvar = t.get.rvar ∧
    (∃ r', w.rvar = some r' ∧ r' ∉ T) ∧ ∀ i ∈ T, i < w.cells.length) (fun w s w' e hp => h1 w s w' e ▸ hp)
    (fun w s w' e hp => h2 w s w' e ▸ hp) (fun f hf w a hp => by rw [h3 f hf]; exact hp) (fun w p d w' e hp => by
      simp only [Option.some.injEq] at e
      obtain ⟨p1, p2, ⟨r', p3, p4⟩, p5⟩ := hp
      have := descent_R (he p d) (loss p d) N w p1 p3 p4 p5
      rw [← e]
      exact ⟨descent_separate (he p d) (loss p d) N w p1, this.1.trans p2, this.2.1, this.2.2⟩) _ _ _ _ _ _ _ _ h
    ⟨ht, rfl, ⟨r, hr, hrT⟩, hT⟩
  exact this.2.1

/-! ### C68 -/

theorem onSamplesLoop_spec {T : List ℕ} {epoch : ℕ → Tensors K → Tensors K} (he : Trains T epoch)
    (testLoss : ParamVals K → K) (n : ℕ) : ∀ (t s : Tensors K), Separate t → SameRefs t s →
    ∃ (b : Tensors K) (t' : Tensors K), (b = s ∨ ∃ k, k < n ∧ b = visited epoch n t (k + 1)) ∧
      onSamplesLoop epoch testLoss n t (some (testLoss s.get, s.get.net, s.get.ctrl)) = some t' ∧ SameRefs t t' ∧
      t'.get.net = b.get.net ∧ t'.get.ctrl = b.get.ctrl ∧ t'.get.rvar = (visited epoch n t n).get.rvar ∧
      testLoss b.get ≤ testLoss s.get ∧
      ∀ k, k < n → testLoss b.get ≤ testLoss (visited epoch n t (k + 1)).get := by
  induction n with
  | zero =>
    intro t s ht hs
    have n1 := List.nodup_append.1 ht.nodup
    have n2 := List.nodup_append.1 n1.1
    have lnet : ∀ i ∈ t.net, i < t.cells.length := fun i hi => ht.lt i (by simp [hi])
    have lctrl : ∀ i ∈ t.ctrl, i < t.cells.length := fun i hi => ht.lt i (by simp [hi])
    have dj : ∀ j ∈ t.net, j ∉ t.ctrl := fun j hj h => n2.2.2 j hj j h rfl
    refine ⟨s, _, Or.inl rfl, rfl, ⟨rfl, rfl, rfl⟩, ?_, ?_, ?_, le_rfl, fun k hk => absurd hk (by omega)⟩
    · show t.net.map (fun i => (loadCells (loadCells t.cells t.net s.get.net) t.ctrl s.get.ctrl).getD i []) = _
      rw [loadCells_map_other _ _ _ _ dj]
      exact loadCells_map _ _ _ n2.1 lnet (by simp [Tensors.get, hs.1])
    · exact loadCells_map _ _ _ n2.2.1 (by simpa using lctrl) (by simp [Tensors.get, hs.2.1])
    · show t.rvar.map (fun i => (loadCells (loadCells t.cells t.net s.get.net) t.ctrl s.get.ctrl).getD i []) = _
      cases hv : t.rvar with
      | none => simp [visited, Tensors.get, hv]
      | some r =>
        have hr : ∀ a ∈ t.net ++ t.ctrl, a ≠ r := fun a ha => n1.2.2 a ha r (by simp [hv])
        simp only [visited, Tensors.get, hv, Option.map_some, Option.some.injEq]
        rw [loadCells_other _ _ _ _ (fun h => hr r (by simp [h]) rfl),
          loadCells_other _ _ _ _ (fun h => hr r (by simp [h]) rfl)]
  | succ n ih =>
    intro t s ht hs
    have h1 : SameRefs t (epoch n t) := he.refs n t
    have ht1 : Separate (epoch n t) := separate_of_same ht h1 (he.len n t)
    have back : ∀ {u : Tensors K}, SameRefs (epoch n t) u → SameRefs t u := fun ⟨a, b, c⟩ =>
      ⟨a.trans h1.1, b.trans h1.2.1, c.trans h1.2.2⟩
    have hv1 : visited epoch (n + 1) t 1 = epoch n t := by simp [visited]
    unfold onSamplesLoop
    simp only [Option.mem_def, Option.some.injEq, forall_eq']
    split_ifs with hb
    · obtain ⟨b, t', hb', e, hr, e1, e2, e3, hle, hall⟩ := ih (epoch n t) (epoch n t) ht1 ⟨rfl, rfl, rfl⟩
      refine ⟨b, t', Or.inr ?_, e, back hr, e1, e2, ?_, hle.trans hb.le, ?_⟩
      · rcases hb' with rfl | ⟨k, hk, rfl⟩
        · exact ⟨0, by omega, hv1.symm⟩
        · exact ⟨k + 1, by omega, (visited_shift epoch n t (k + 1)).symm⟩
      · rw [visited_shift]
        exact e3
      · intro k hk
        cases k with
        | zero => rw [hv1]; exact hle
        | succ k =>
          rw [visited_shift]
          exact hall k (by omega)
    · obtain ⟨b, t', hb', e, hr, e1, e2, e3, hle, hall⟩ := ih (epoch n t) s ht1
        ⟨hs.1.trans h1.1.symm, hs.2.1.trans h1.2.1.symm, hs.2.2.trans h1.2.2.symm⟩
      refine ⟨b, t', ?_, e, back hr, e1, e2, ?_, hle, ?_⟩
      · rcases hb' with rfl | ⟨k, hk, rfl⟩
        · exact Or.inl rfl
        · exact Or.inr ⟨k + 1, by omega, (visited_shift epoch n t (k + 1)).symm⟩
      · rw [visited_shift]
        exact e3
      · intro k hk
        cases k with
        | zero => rw [hv1]; exact hle.trans (not_lt.1 hb)
        | succ k =>
          rw [visited_shift]
          exact hall k (by omega)

/-- C68. `train_lyapunov_on_samples` with at least one epoch leaves the networks of the epoch with the smallest test
loss, in the same tensors, and `R` as it is after the last epoch. -/
theorem C68_best_networks {T : List ℕ} {epoch : ℕ → Tensors K → Tensors K} (he : Trains T epoch)
    (testLoss : ParamVals K → K) (N : ℕ) (hN : N ≠ 0) (t : Tensors K) (ht : Separate t) :
    ∃ t' k, trainOnSamples epoch testLoss N t = some t' ∧ SameRefs t t' ∧ 1 ≤ k ∧ k ≤ N ∧
      t'.get.net = (visited epoch N t k).get.net ∧ t'.get.ctrl = (visited epoch N t k).get.ctrl ∧
      t'.get.rvar = (visited epoch N t N).get.rvar ∧
      ∀ j, 1 ≤ j → j ≤ N → testLoss (visited epoch N t k).get ≤ testLoss (visited epoch N t j).get := by
  obtain ⟨n, rfl⟩ := Nat.exists_eq_succ_of_ne_zero hN
  have h1 : SameRefs t (epoch n t) := he.refs n t
  have hv1 : visited epoch (n + 1) t 1 = epoch n t := by simp [visited]
  obtain ⟨b, t', hb', e, hr, e1, e2, e3, hle, hall⟩ := onSamplesLoop_spec he testLoss n (epoch n t) (epoch n t)
    (separate_of_same ht h1 (he.len n t)) ⟨rfl, rfl, rfl⟩
  have hb : ∃ k, k < n + 1 ∧ b = visited epoch (n + 1) t (k + 1) := by
    rcases hb' with rfl | ⟨k, hk, rfl⟩
    · exact ⟨0, by omega, hv1.symm⟩
    · exact ⟨k + 1, by omega, (visited_shift epoch n t (k + 1)).symm⟩
  obtain ⟨k, hk, rfl⟩ := hb
  refine ⟨t', k + 1, ?_, ⟨hr.1.trans h1.1, hr.2.1.trans h1.2.1, hr.2.2.trans h1.2.2⟩, by omega, by omega, e1, e2, ?_, ?_⟩
  · unfold trainOnSamples onSamplesLoop
    simp only [Option.mem_def, reduceCtorEq, false_implies, implies_true, if_true]
    exact e
  · rw [Nat.succ_eq_add_one, visited_shift]
    exact e3
  · intro j hj hj'
    obtain ⟨i, rfl⟩ : ∃ i, j = i + 1 := ⟨j - 1, by omega⟩
    cases i with
    | zero => rw [hv1]; exact hle
    | succ i =>
      rw [Nat.succ_eq_add_one, visited_shift epoch n t (i + 1)]
      exact hall i (by omega)

/-- C68. With a fixed `R` the test loss of what is left is the smallest one. -/
theorem C68_best_loss {T : List ℕ} {epoch : ℕ → Tensors K → Tensors K} (he : Trains T epoch)
    (testLoss : ParamVals K → K) (N : ℕ) (hN : N ≠ 0) (t : Tensors K) (ht : Separate t) (hR : t.rvar = none) :
    ∃ t', trainOnSamples epoch testLoss N t = some t' ∧
      ∀ j, 1 ≤ j → j ≤ N → testLoss t'.get ≤ testLoss (visited epoch N t j).get := by
  obtain ⟨t', k, e, hr, h1, h2, e1, e2, e3, hall⟩ := C68_best_networks he testLoss N hN t ht
  refine ⟨t', e, fun j hj hj' => ?_⟩
  have : t'.get = (visited epoch N t k).get := by
    have r1 : t'.get.rvar = none := by simp [Tensors.get, hr.2.2, hR]
    have r2 : (visited epoch N t k).get.rvar = none := by simp [Tensors.get, (visited_same he N t k).1.2.2, hR]
    calc t'.get = ⟨t'.get.net, t'.get.ctrl, t'.get.rvar⟩ := rfl
      _ = ⟨(visited epoch N t k).get.net, (visited epoch N t k).get.ctrl, (visited epoch N t k).get.rvar⟩ := by
        rw [e1, e2, r1, r2]
  rw [this]
  exact hall j hj hj'

/-- No epochs: raises (`best_lyapunov_relu` is `None`). -/
theorem C68_zero_epochs_raises (epoch : ℕ → Tensors K → Tensors K) (testLoss : ParamVals K → K) (t : Tensors K) :
    trainOnSamples epoch testLoss 0 t = none := rfl

/-! ### C69 -/

theorem valueLoop_spec (loss : W → K) (update : W → W) (tol : K) (n : ℕ) : ∀ (w : W) (last : Option K)
    (b : Bool) (l : K) (w' : W), valueLoop loss update tol n w last = some (b, l, w') →
    (b = true ∧ ∃ k, k < n ∧ w' = update^[k] w ∧ l = loss w' ∧ l ≤ tol ∧ ∀ j, j < k → tol < loss (update^[j] w)) ∨
    (b = false ∧ w' = update^[n] w ∧ (∀ j, j < n → tol < loss (update^[j] w)) ∧
      ((n = 0 ∧ last = some l) ∨ ∃ m, n = m + 1 ∧ l = loss (update^[m] w))) := by
  induction n with
  | zero =>
    intro w last b l w' h
    simp only [valueLoop, Option.map_eq_some_iff, Prod.mk.injEq] at h
    obtain ⟨a, h1, rfl, rfl, rfl⟩ := h
    exact Or.inr ⟨rfl, rfl, fun j hj => absurd hj (by omega), Or.inl ⟨rfl, h1⟩⟩
  | succ n ih =>
    intro w last b l w' h
    unfold valueLoop at h
    split_ifs at h with hc
    · simp only [Option.some.injEq, Prod.mk.injEq] at h
      obtain ⟨rfl, rfl, rfl⟩ := h
      exact Or.inl ⟨rfl, 0, by omega, rfl, rfl, hc, fun j hj => absurd hj (by omega)⟩
    · have hall : ∀ {m}, (∀ j, j < m → tol < loss (update^[j] (update w))) → ∀ j, j < m + 1 →
          tol < loss (update^[j] w) := by
        intro m hm j hj
        cases j with
        | zero => exact not_le.1 hc
        | succ j => exact hm j (by omega)
      rcases ih _ _ _ _ _ h with ⟨rfl, k, hk, e, e1, e2, e3⟩ | ⟨rfl, e, e3, e4⟩
      · exact Or.inl ⟨rfl, k + 1, by omega, e, e1, e2, hall e3⟩
      · refine Or.inr ⟨rfl, e, hall e3, Or.inr ⟨n, rfl, ?_⟩⟩
        rcases e4 with ⟨rfl, e4⟩ | ⟨m, rfl, e4⟩
        · cases e4
          rfl
        · exact e4

/-- C69. `train_with_cost_to_go` returns `True` exactly when the loss is within the tolerance after fewer than
`max_epochs` steps, with the network and loss of the first such step. -/
theorem C69_value_true (loss : W → K) (update : W → W) (tol : K) (N : ℕ) (w w' : W) (b : Bool) (l : K)
    (h : trainValue loss update tol N w = some (b, l, w')) :
    (b = true ↔ ∃ k, k < N ∧ loss (update^[k] w) ≤ tol) ∧
    (b = true → l = loss w' ∧ l ≤ tol ∧ ∃ k, k < N ∧ w' = update^[k] w ∧ ∀ j, j < k → tol < loss (update^[j] w)) := by
  rcases valueLoop_spec loss update tol N w none b l w' h with ⟨rfl, k, hk, e, e1, e2, e3⟩ | ⟨rfl, e, e3, e4⟩
  · refine ⟨⟨fun _ => ⟨k, hk, ?_⟩, fun _ => rfl⟩, fun _ => ⟨e1, e2, k, hk, e, e3⟩⟩
    rw [← e, ← e1]
    exact e2
  · refine ⟨⟨fun h => by simp at h, fun ⟨k, hk, hl⟩ => absurd (e3 k hk) (not_lt.2 hl)⟩, fun h => by simp at h⟩

/-- C69. When it returns `False`, the network has been updated `max_epochs` times, and the loss returned is the one
before the last update. -/
theorem C69_value_false (loss : W → K) (update : W → W) (tol : K) (N : ℕ) (w w' : W) (l : K)
    (h : trainValue loss update tol N w = some (false, l, w')) :
    w' = update^[N] w ∧ tol < l ∧ ∃ m, N = m + 1 ∧ l = loss (update^[m] w) := by
  rcases valueLoop_spec loss update tol N w none false l w' h with ⟨hb, -⟩ | ⟨-, e, e3, e4⟩
  · simp at hb
  · rcases e4 with ⟨rfl, e4⟩ | ⟨m, rfl, e4⟩
    · cases e4
    · exact ⟨e, by rw [e4]; exact e3 m (by omega), m, rfl, e4⟩

/-- C69. It raises exactly if `max_epochs` is 0. -/
theorem C69_value_raises (loss : W → K) (update : W → W) (tol : K) (N : ℕ) (w : W) :
    trainValue loss update tol N w = none ↔ N = 0 := by
  constructor
  · have key : ∀ n (w : W) (a : K), valueLoop loss update tol n w (some a) ≠ none := by
      intro n
      induction n with
      | zero => intro w a; simp [valueLoop]
      | succ n ih =>
        intro w a
        unfold valueLoop
        split_ifs
        · simp
        · exact ih _ _
    intro h
    cases N with
    | zero => rfl
    | succ n =>
      exfalso
      unfold trainValue valueLoop at h
      split_ifs at h
      exact key _ _ _ h
  · rintro rfl
    rfl

/-! ### Examples -/

/-- One network tensor, one controller tensor and `R`; an optimiser on all three. -/
def exTensors : Tensors ℚ := ⟨[[4], [1], [2]], [0], [1], some 2⟩

theorem exTensors_sep : Separate exTensors := by
  constructor
  · decide
  · decide

/-- A step that halves the first entry of the given tensors. -/
def halveAt (T : List ℕ) (_ : ℕ) (t : Tensors ℚ) : Tensors ℚ :=
  { t with cells := (List.range t.cells.length).map fun i =>
      if i ∈ T then (t.cells.getD i []).map (· / 2) else t.cells.getD i [] }

theorem halveAt_trains (T : List ℕ) : Trains T (halveAt T) := by
  constructor
  · exact fun _ _ => ⟨rfl, rfl, rfl⟩
  · intro n t
    simp [halveAt]
  · intro n t i hi
    unfold halveAt
    simp only [List.getD]
    by_cases h : i < t.cells.length
    · simp [h, hi]
    · simp [h]

/-- The losses of the example: sums of squares. -/
def exLoss (p : ParamVals ℚ) : ℚ × ℚ :=
  (((p.net ++ p.ctrl).flatten.map fun a => a ^ 2).sum, ((p.rvar.getD []).map fun a => (a - 1) ^ 2).sum)

theorem sum_sq_nonneg (f : ℚ → ℚ) (l : List ℚ) : 0 ≤ (l.map fun a => f a ^ 2).sum := by
  induction l with
  | nil => simp
  | cons a l ih =>
    simp only [List.map_cons, List.sum_cons]
    have := sq_nonneg (f a)
    linarith

/-- The hypotheses of the C66 theorems hold for a descent with three epochs: the best `R` is that of the second one. -/
example : total (exLoss (batchDescent (halveAt [0, 1, 2]) exLoss 3 exTensors).get) ≤ total (exLoss exTensors.get) :=
  C66_descent_no_increase (halveAt_trains _) exLoss (fun p => ⟨sum_sq_nonneg id _, sum_sq_nonneg (fun a => a - 1) _⟩) 3
    exTensors exTensors_sep

/-- After one descent `R` is a new tensor (number 3), so a second descent with the optimiser of the first does not change
it, although the first one did. -/
example : (batchDescent (halveAt [0, 1, 2]) exLoss 1 exTensors).get.rvar = some [1] ∧
    (batchDescent (halveAt [0, 1, 2]) exLoss 1 exTensors).rvar = some 3 ∧
    (batchDescent (halveAt [0, 1, 2]) exLoss 1 (batchDescent (halveAt [0, 1, 2]) exLoss 1 exTensors)).get.rvar =
      some [1] ∧
    (batchDescent (halveAt [0, 1, 2]) exLoss 1 (batchDescent (halveAt [0, 1, 2]) exLoss 1 exTensors)).get.net =
      [[1]] := by
  decide +kernel

/-- C68, the failure: `R` is not restored, so the test loss left can be larger than that of an epoch. -/
theorem C68_R_not_restored_counterexample : ∃ (epoch : ℕ → Tensors ℚ → Tensors ℚ) (testLoss : ParamVals ℚ → ℚ)
    (t t' : Tensors ℚ), Trains [0, 1, 2] epoch ∧ Separate t ∧ trainOnSamples epoch testLoss 2 t = some t' ∧
      testLoss (visited epoch 2 t 1).get < testLoss t'.get := by
  have h : (trainOnSamples (halveAt [0, 1, 2]) (fun p => ((p.rvar.getD []).map fun a => (a - 1) ^ 2).sum) 2
      exTensors).map (fun t => ((t.get.rvar.getD []).map fun a => (a - 1) ^ 2).sum) = some (1 / 4) := by
    decide +kernel
  obtain ⟨t', e, h⟩ := Option.map_eq_some_iff.1 h
  refine ⟨_, _, _, t', halveAt_trains _, exTensors_sep, e, ?_⟩
  simp only [h]
  decide +kernel

/-- A value fit that succeeds in the third epoch. -/
example : trainValue (fun w : ℚ => w ^ 2) (fun w => w / 2) (1 / 10) 5 1 = some (true, 1 / 16, 1 / 4) := by
  decide +kernel

/-- One that does not: the loss returned is that of `1 / 2`, the value left is `1 / 4`. -/
example : trainValue (fun w : ℚ => w ^ 2) (fun w => w / 2) (1 / 10) 2 1 = some (false, 1 / 4, 1 / 4) := by
  decide +kernel

end NNL.Props
