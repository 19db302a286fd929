import Verif.Model.ReplayBuffer
import Mathlib.Data.List.GetD
import Mathlib.Data.List.Induction
import Mathlib.Data.List.Forall2
import Mathlib.Data.Int.Basic
import Mathlib.Order.Lattice
import Mathlib.Algebra.Ring.Int.Defs
import Mathlib.Tactic.Set

/-!
# C103: the replay buffer holds the latest transitions
-/

namespace NNL.Props

open NNL.Model

variable {O A R : Type*}

/-- Row `i` of the buffer is the transition `t`, in all five fields. -/
def Row (b : ReplayBuffer O A R) (i : ℕ) (t : Transition O A R) : Prop :=
  b.obsBuf[i]? = some t.obs ∧ b.obs2Buf[i]? = some t.nextObs ∧ b.actBuf[i]? = some t.act ∧ b.rewBuf[i]? = some t.rew ∧
    b.doneBuf[i]? = some t.done

/-- The buffer after storing the transitions `ts`. -/
def stored (o0 : O) (a0 : A) (r0 : R) (size : ℕ) (ts : List (Transition O A R)) : ReplayBuffer O A R :=
  ts.foldl ReplayBuffer.store (ReplayBuffer.init o0 a0 r0 size)

theorem stored_inv (o0 : O) (a0 : A) (r0 : R) {S : ℕ} (hS : 0 < S) (ts : List (Transition O A R)) :
    let b := stored o0 a0 r0 S ts
    b.maxSize = S ∧ b.ptr = ts.length % S ∧ b.size = min ts.length S ∧ b.obsBuf.length = S ∧ b.obs2Buf.length = S ∧
      b.actBuf.length = S ∧ b.rewBuf.length = S ∧ b.doneBuf.length = S ∧
      ∀ m t, ts[m]? = some t → ts.length ≤ m + S → Row b (m % S) t := by
  induction ts using List.reverseRecOn with
  | nil => simp [stored, ReplayBuffer.init]
  | append_singleton ts t ih =>
    simp only [stored] at ih
    obtain ⟨h1, h2, h3, h4, h5, h6, h7, h8, h9⟩ := ih
    simp only [stored, List.foldl_append, List.foldl_cons, List.foldl_nil, List.length_append, List.length_singleton]
    set b := List.foldl ReplayBuffer.store (ReplayBuffer.init o0 a0 r0 S) ts with hb
    refine ⟨h1, ?_, ?_, by simp [ReplayBuffer.store, h4], by simp [ReplayBuffer.store, h5], by simp [ReplayBuffer.store, h6],
      by simp [ReplayBuffer.store, h7], by simp [ReplayBuffer.store, h8], ?_⟩
    · simp [ReplayBuffer.store, h1, h2, Nat.add_mod]
    · simp only [ReplayBuffer.store, h1, h3]
      omega
    · intro m t' hm hle
      have hlt : ts.length % S < S := Nat.mod_lt _ hS
      rcases Nat.lt_trichotomy m ts.length with hl | rfl | hl
      · rw [List.getElem?_append_left hl] at hm
        obtain ⟨r1, r2, r3, r4, r5⟩ := h9 m t' hm (by omega)
        have hne : ts.length % S ≠ m % S := by
          intro e
          have : (ts.length - m) % S = 0 := Nat.sub_mod_eq_zero_of_mod_eq e
          rw [Nat.mod_eq_of_lt (by omega)] at this
          omega
        simp only [Row, ReplayBuffer.store, h2, List.getElem?_set_ne hne]
        exact ⟨r1, r2, r3, r4, r5⟩
      · simp only [List.getElem?_concat_length, Option.some.injEq] at hm
        subst hm
        simp [Row, ReplayBuffer.store, h2, h4, h5, h6, h7, h8, hlt]
      · rw [List.getElem?_eq_none (by simp; omega)] at hm
        cases hm

/-- C103. The buffer holds `min k S` transitions. Its rows below `size` are exactly the latest `S` transitions stored, each in all five
fields of one row. -/
theorem C103_contents (o0 : O) (a0 : A) (r0 : R) {S : ℕ} (hS : 0 < S) (ts : List (Transition O A R)) :
    let b := stored o0 a0 r0 S ts
    b.size = min ts.length S ∧
      (∀ i < b.size, ∃ m t, ts[m]? = some t ∧ ts.length ≤ m + S ∧ Row b i t) ∧
      ∀ m t, ts[m]? = some t → ts.length ≤ m + S → ∃ i < b.size, Row b i t := by
  obtain ⟨-, -, h3, -, -, -, -, -, h9⟩ := stored_inv o0 a0 r0 hS ts
  refine ⟨h3, fun i hi => ?_, fun m t hm hle => ⟨m % S, ?_, h9 m t hm hle⟩⟩
  · rw [h3] at hi
    have h1 : (ts.length - 1 - i) % S < S := Nat.mod_lt _ hS
    have h2 : (ts.length - 1 - i) % S ≤ ts.length - 1 - i := Nat.mod_le _ _
    set q := (ts.length - 1 - i) / S with hq
    have h4 : S * q + (ts.length - 1 - i) % S = ts.length - 1 - i := Nat.div_add_mod _ _
    have hm : ts.length - 1 - (ts.length - 1 - i) % S = i + S * q := by omega
    have hlt : i + S * q < ts.length := by omega
    refine ⟨i + S * q, ts[i + S * q], List.getElem?_eq_getElem hlt, by omega, ?_⟩
    have := h9 _ _ (List.getElem?_eq_getElem hlt) (by omega)
    rwa [Nat.add_mul_mod_self_left, Nat.mod_eq_of_lt (by omega)] at this
  · have hlt := (List.getElem?_eq_some_iff.1 hm).1
    have h1 := Nat.mod_le m S
    have h2 := Nat.mod_lt m hS
    omega

theorem mapM_rows {α : Type*} (l : List α) (f : Transition O A R → α) {idxs : List ℕ} {rows : List (Transition O A R)}
    (h : List.Forall₂ (fun i t => l[i]? = some (f t)) idxs rows) : idxs.mapM (l[·]?) = some (rows.map f) := by
  induction h with
  | nil => rfl
  | cons h _ ih => simp [List.mapM_cons, h, ih]

/-- C103. A batch consists of transitions among the latest `S`, with the fields of each at the same place; an empty buffer raises. -/
theorem C103_sample (o0 : O) (a0 : A) (r0 : R) {S : ℕ} (hS : 0 < S) (ts : List (Transition O A R)) (idxs : List ℕ) :
    (ts = [] → (stored o0 a0 r0 S ts).sampleBatch idxs = none) ∧
    (ts ≠ [] → (∀ i ∈ idxs, i < (stored o0 a0 r0 S ts).size) →
      ∃ rows : List (Transition O A R), rows.length = idxs.length ∧
        (∀ t ∈ rows, ∃ m, ts[m]? = some t ∧ ts.length ≤ m + S) ∧
        (stored o0 a0 r0 S ts).sampleBatch idxs = some ⟨rows.map (·.obs), rows.map (·.nextObs), rows.map (·.act), rows.map (·.rew),
          rows.map (·.done)⟩) := by
  obtain ⟨h1, h2, -⟩ := C103_contents o0 a0 r0 hS ts
  set b := stored o0 a0 r0 S ts with hb
  constructor
  · rintro rfl
    have : b.size = 0 := by simpa using h1
    simp [ReplayBuffer.sampleBatch, this]
  · intro hne hi
    have hrows : ∃ rows : List (Transition O A R), List.Forall₂ (fun i t => Row b i t) idxs rows ∧
        ∀ t ∈ rows, ∃ m, ts[m]? = some t ∧ ts.length ≤ m + S := by
      clear_value b
      clear hb
      induction idxs with
      | nil => exact ⟨[], .nil, by simp⟩
      | cons i idxs ih =>
        obtain ⟨rows, r1, r2⟩ := ih fun j hj => hi j (by simp [hj])
        obtain ⟨m, t, a1, a2, a3⟩ := h2 i (hi i (by simp))
        refine ⟨t :: rows, .cons a3 r1, ?_⟩
        rintro t' (_ | ⟨_, h⟩)
        · exact ⟨m, a1, a2⟩
        · exact r2 t' h
    obtain ⟨rows, r1, r2⟩ := hrows
    refine ⟨rows, r1.length_eq.symm, r2, ?_⟩
    have hs : b.size ≠ 0 := by
      have := List.length_pos_of_ne_nil hne
      omega
    rw [ReplayBuffer.sampleBatch, if_neg hs, mapM_rows b.obsBuf (·.obs) (r1.imp fun _ _ h => h.1),
      mapM_rows b.obs2Buf (·.nextObs) (r1.imp fun _ _ h => h.2.1), mapM_rows b.actBuf (·.act) (r1.imp fun _ _ h => h.2.2.1),
      mapM_rows b.rewBuf (·.rew) (r1.imp fun _ _ h => h.2.2.2.1), mapM_rows b.doneBuf (·.done) (r1.imp fun _ _ h => h.2.2.2.2)]
    rfl

/-- Three transitions in a buffer of two: the first one is gone, the third one has taken its row. -/
example : let b := stored (0 : ℤ) (0 : ℤ) (0 : ℤ) 2 [⟨1, 2, 3, 4, 0⟩, ⟨5, 6, 7, 8, 0⟩, ⟨9, 10, 11, 12, 1⟩]
    b.size = 2 ∧ b.obsBuf = [9, 5] ∧ b.obs2Buf = [12, 8] ∧ b.doneBuf = [1, 0] := by decide

end NNL.Props
