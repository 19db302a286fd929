import Verif.Model.Sampling
import Mathlib.Algebra.Order.Floor.Ring
import Mathlib.Data.Rat.Floor
import Mathlib.Data.List.Forall2
import Mathlib.Tactic.Linarith
import Mathlib.Tactic.FieldSimp
import Mathlib.Tactic.Positivity

/-!
# C96: samples in a box and on its boundary
-/

set_option linter.unusedSectionVars false

namespace NNL.Props

open NNL.Model

variable {K : Type} [Field K] [LinearOrder K] [IsStrictOrderedRing K]

/-- The point is in the box. -/
def InBox (lo hi x : List K) : Prop :=
  x.length = lo.length ∧ ∀ (i : ℕ) (l h v : K), lo[i]? = some l → hi[i]? = some h → x[i]? = some v → l ≤ v ∧ v ≤ h

/-- Draws of `torch.rand` for one sample. -/
def Draws (n : ℕ) (r : List K) : Prop := r.length = n ∧ ∀ v ∈ r, 0 ≤ v ∧ v < 1

theorem sampleInBoxRow_getElem? (lo hi r : List K) (i : ℕ) (l h v : K) (hl : lo[i]? = some l) (hh : hi[i]? = some h)
    (hr : r[i]? = some v) : (sampleInBoxRow lo hi r)[i]? = some (v * (h - l) + l) := by
  simp [sampleInBoxRow, List.getElem?_zipWith, hl, hh, hr]

theorem sampleInBoxRow_length (lo hi r : List K) (hh : hi.length = lo.length) (hr : r.length = lo.length) :
    (sampleInBoxRow lo hi r).length = lo.length := by
  simp [sampleInBoxRow, hh, hr]

theorem inBox_row {lo hi r : List K} (hh : hi.length = lo.length)
    (hle : ∀ (i : ℕ) (l h : K), lo[i]? = some l → hi[i]? = some h → l ≤ h) (hr : Draws lo.length r) :
    InBox lo hi (sampleInBoxRow lo hi r) := by
  refine ⟨sampleInBoxRow_length lo hi r hh hr.1, fun i l h v hl hu hv => ?_⟩
  have hi' : i < r.length := by
    rw [hr.1]
    exact (List.getElem?_eq_some_iff.1 hl).1
  have hri : r[i]? = some r[i] := List.getElem?_eq_getElem hi'
  rw [sampleInBoxRow_getElem? lo hi r i l h r[i] hl hu hri, Option.some.injEq] at hv
  obtain ⟨h0, h1⟩ := hr.2 r[i] (List.getElem_mem hi')
  have hlh := sub_nonneg.2 (hle i l h hl hu)
  subst hv
  constructor
  · have := mul_nonneg h0 hlh
    linarith
  · have := mul_le_mul_of_nonneg_right h1.le hlh
    linarith

/-- C96. `uniform_sample_in_box` returns one point of the box for each draw. -/
theorem C96_box (lo hi : List K) (hh : hi.length = lo.length)
    (hle : ∀ (i : ℕ) (l h : K), lo[i]? = some l → hi[i]? = some h → l ≤ h) (draws : List (List K))
    (hd : ∀ r ∈ draws, Draws lo.length r) :
    ∃ s, sampleInBox lo hi draws = some s ∧ s.length = draws.length ∧ ∀ x ∈ s, InBox lo hi x := by
  refine ⟨_, if_pos hh, by simp, fun x hx => ?_⟩
  obtain ⟨r, hr, rfl⟩ := List.mem_map.1 hx
  exact inBox_row hh hle (hd r hr)

/-- C96. Each point of the box below its upper faces is the sample of some draw. -/
theorem C96_box_onto (lo hi x : List K) (hh : hi.length = lo.length) (hx : x.length = lo.length)
    (hin : ∀ (i : ℕ) (l h v : K), lo[i]? = some l → hi[i]? = some h → x[i]? = some v → l ≤ v ∧ v < h) :
    ∃ r, Draws lo.length r ∧ sampleInBox lo hi [r] = some [x] := by
  have hx' : ∀ i (hi' : i < lo.length), lo[i] ≤ x[i]'(by omega) ∧ x[i]'(by omega) < hi[i]'(by omega) := fun i hi' =>
    hin i _ _ _ (List.getElem?_eq_getElem hi') (List.getElem?_eq_getElem _) (List.getElem?_eq_getElem _)
  refine ⟨List.zipWith (fun v b => (v - b.1) / (b.2 - b.1)) x (lo.zip hi), ⟨by simp [hh, hx], fun v hv => ?_⟩, ?_⟩
  · obtain ⟨i, hi', rfl⟩ := List.mem_iff_getElem.1 hv
    simp only [List.length_zipWith, List.length_zip, hh, hx, min_self] at hi'
    simp only [List.getElem_zipWith, List.getElem_zip]
    obtain ⟨h1, h2⟩ := hx' i hi'
    have hpos : 0 < hi[i] - lo[i] := by linarith
    exact ⟨div_nonneg (by linarith) hpos.le, (div_lt_one hpos).2 (by linarith)⟩
  · rw [sampleInBox, if_pos hh, Option.some.injEq, List.map_singleton, List.singleton_inj]
    refine List.ext_getElem (by simp [sampleInBoxRow, hh, hx]) fun i h1 h2 => ?_
    obtain ⟨h3, h4⟩ := hx' i (by omega)
    simp only [sampleInBoxRow, List.getElem_zipWith, List.getElem_zip]
    have hpos : hi[i] - lo[i] ≠ 0 := by linarith
    rw [div_mul_cancel₀ _ hpos]
    ring

variable [FloorSemiring K]

/-- The face that a draw selects. -/
theorem moveToFace_spec {lo hi x : List K} (hh : hi.length = lo.length) (hx : InBox lo hi x)
    (hle : ∀ (i : ℕ) (l h : K), lo[i]? = some l → hi[i]? = some h → l ≤ h) (hpos : 0 < lo.length) {draw : K} (h0 : 0 ≤ draw)
    (h1 : draw < 1) :
    (moveToFace lo hi x draw = none ↔ draw = 0) ∧ ∀ y, moveToFace lo hi x draw = some y → InBox lo hi y ∧
      ∃ (i : ℕ) (v : K), y[i]? = some v ∧ (lo[i]? = some v ∧ draw < 1 / 2 ∨ hi[i]? = some v ∧ 1 / 2 ≤ draw) := by
  have hn : (0 : K) < lo.length := by exact_mod_cast hpos
  set j := ⌊|draw * 2 - 1| * (lo.length : K)⌋₊ with hj
  have hlt : j < lo.length ↔ draw ≠ 0 := by
    rw [hj, Nat.floor_lt (by positivity), mul_lt_iff_lt_one_left hn]
    constructor
    · rintro h rfl
      simp at h
    · intro h
      have : 0 < draw := lt_of_le_of_ne h0 (Ne.symm h)
      rw [abs_lt]
      constructor <;> linarith
  have hhalf : draw * 2 - 1 < 0 ↔ draw < 1 / 2 := by
    constructor <;> intro h <;> linarith
  by_cases hd : draw = 0
  · have : ¬ j < x.length := by rw [hx.1, hlt]; simp [hd]
    refine ⟨⟨fun _ => hd, fun _ => by simp only [moveToFace, ← hj, if_neg this]⟩, fun y hy => ?_⟩
    simp only [moveToFace, ← hj, if_neg this] at hy
    exact absurd hy (by simp)
  have hjl : j < lo.length := hlt.2 hd
  have hjx : j < x.length := by rw [hx.1]; exact hjl
  have hjh : j < hi.length := by rw [hh]; exact hjl
  have hlo : lo[j]? = some lo[j] := List.getElem?_eq_getElem hjl
  have hhi : hi[j]? = some hi[j] := List.getElem?_eq_getElem hjh
  have hset : ∀ v, lo[j] ≤ v → v ≤ hi[j] → InBox lo hi (x.set j v) := by
    intro v hv1 hv2
    refine ⟨by simp [hx.1], fun i l h v' hl hu hv' => ?_⟩
    by_cases hij : j = i
    · subst hij
      rw [List.getElem?_set_self hjx] at hv'
      rw [hlo] at hl
      rw [hhi] at hu
      cases hl
      cases hu
      cases hv'
      exact ⟨hv1, hv2⟩
    · rw [List.getElem?_set_ne hij] at hv'
      exact hx.2 i l h v' hl hu hv'
  have hjle := hle j _ _ hlo hhi
  refine ⟨⟨fun h => ?_, fun h => absurd h hd⟩, fun y hy => ?_⟩
  · simp only [moveToFace, ← hj, if_pos hjx, hlo, hhi] at h
    split_ifs at h <;> simp at h
  · simp only [moveToFace, ← hj, if_pos hjx, hlo, hhi] at hy
    split_ifs at hy with hneg
    · simp only [Option.map_some, Option.some.injEq] at hy
      subst hy
      exact ⟨hset _ le_rfl hjle, j, lo[j], List.getElem?_set_self hjx, Or.inl ⟨hlo, hhalf.1 hneg⟩⟩
    · simp only [Option.map_some, Option.some.injEq] at hy
      subst hy
      exact ⟨hset _ hjle le_rfl, j, hi[j], List.getElem?_set_self hjx, Or.inr ⟨hhi, not_lt.1 fun h => hneg (hhalf.2 h)⟩⟩

theorem mapM_some_of {α β : Type} {f : α → Option β} {P : β → Prop} : ∀ l : List α, (∀ a ∈ l, ∃ b, f a = some b ∧ P b) →
    ∃ bs, l.mapM f = some bs ∧ bs.length = l.length ∧ ∀ b ∈ bs, P b
  | [], _ => ⟨[], rfl, rfl, by simp⟩
  | a :: l, h => by
    obtain ⟨b, hb, hP⟩ := h a (by simp)
    obtain ⟨bs, h1, h2, h3⟩ := mapM_some_of l fun a ha => h a (by simp [ha])
    refine ⟨b :: bs, by simp [List.mapM_cons, hb, h1], by simp [h2], ?_⟩
    intro c hc
    rcases List.mem_cons.1 hc with rfl | hc
    · exact hP
    · exact h3 c hc

/-- C96. If no draw of a face is exactly zero, `uniform_sample_on_box_boundary` returns one point for each sample, in the box and on one
of its faces. -/
theorem C96_boundary_partial (lo hi : List K) (hh : hi.length = lo.length) (hpos : 0 < lo.length)
    (hle : ∀ (i : ℕ) (l h : K), lo[i]? = some l → hi[i]? = some h → l ≤ h) (draws : List (List K))
    (hd : ∀ r ∈ draws, Draws lo.length r) (faces : List K) (hf : faces.length = draws.length) (hf1 : ∀ v ∈ faces, 0 < v ∧ v < 1) :
    ∃ s, sampleOnBoundary lo hi draws faces = some s ∧ s.length = draws.length ∧
      ∀ x ∈ s, InBox lo hi x ∧ ∃ (i : ℕ) (v : K), x[i]? = some v ∧ (lo[i]? = some v ∨ hi[i]? = some v) := by
  obtain ⟨t, h1, h2, h3⟩ := C96_box lo hi hh hle draws hd
  obtain ⟨s, s1, s2, s3⟩ := mapM_some_of (f := fun e : List K × K => moveToFace lo hi e.1 e.2)
    (P := fun x => InBox lo hi x ∧ ∃ (i : ℕ) (v : K), x[i]? = some v ∧ (lo[i]? = some v ∨ hi[i]? = some v)) (t.zip faces) (by
      intro e he
      obtain ⟨m1, m2⟩ := List.of_mem_zip he
      obtain ⟨f0, f1⟩ := hf1 e.2 m2
      obtain ⟨k1, k2⟩ := moveToFace_spec hh (h3 _ m1) hle hpos f0.le f1
      cases hm : moveToFace lo hi e.1 e.2 with
      | none => exact absurd (k1.1 hm) f0.ne'
      | some y =>
        obtain ⟨y1, i, v, y2, y3⟩ := k2 y hm
        exact ⟨y, rfl, y1, i, v, y2, y3.imp (·.1) (·.1)⟩)
  refine ⟨s, ?_, ?_, s3⟩
  · simp only [sampleOnBoundary, h1, Option.bind_eq_bind, Option.bind_some, s1]
  · rw [s2, List.length_zip, h2, hf, min_self]

/-- C96. A draw of a face that is exactly zero is an error: the index of the face is the dimension. -/
theorem C96_zero_draw (lo hi : List K) (hh : hi.length = lo.length) (hpos : 0 < lo.length)
    (hle : ∀ (i : ℕ) (l h : K), lo[i]? = some l → hi[i]? = some h → l ≤ h) (r : List K) (hr : Draws lo.length r) :
    sampleOnBoundary lo hi [r] [0] = none := by
  obtain ⟨h, -⟩ := moveToFace_spec hh (inBox_row hh hle hr) hle hpos (le_refl (0 : K)) one_pos
  simp [sampleOnBoundary, sampleInBox, hh, h.2 rfl]

/-- C96. Each face is selected by some draw: for each coordinate and each of its two sides there are draws of the face after which the
sample has this coordinate on this side. -/
theorem C96_faces (lo hi x : List K) (hh : hi.length = lo.length) (hx : x.length = lo.length) (i : ℕ) (hi' : i < lo.length) :
    (∃ d, 0 < d ∧ d < 1 ∧ moveToFace lo hi x d = some (x.set i (lo.getD i 0))) ∧
      ∃ d, 0 < d ∧ d < 1 ∧ moveToFace lo hi x d = some (x.set i (hi.getD i 0)) := by
  have hn : (0 : K) < lo.length := by exact_mod_cast (by omega : 0 < lo.length)
  have hin : (i : K) < lo.length := by exact_mod_cast hi'
  have hi0 : (0 : K) ≤ i := Nat.cast_nonneg i
  set c : K := (i + 1 / 2) / lo.length with hc
  have hi1 : (i : K) + 1 ≤ lo.length := by exact_mod_cast hi'
  have hc0 : 0 < c := div_pos (by linarith) hn
  have hc1 : c < 1 := (div_lt_one hn).2 (by linarith)
  have hfl : ⌊c * (lo.length : K)⌋₊ = i := by
    rw [hc, div_mul_cancel₀ _ hn.ne', Nat.floor_eq_iff (by linarith)]
    constructor <;> linarith
  have hlo : lo[i]? = some (lo.getD i 0) := by simp [List.getD_eq_getElem?_getD, hi']
  have hhi : hi[i]? = some (hi.getD i 0) := by
    have : i < hi.length := by omega
    simp [List.getD_eq_getElem?_getD, this]
  constructor
  · refine ⟨(1 - c) / 2, by linarith, by linarith, ?_⟩
    have e : (1 - c) / 2 * 2 - 1 = -c := by ring
    simp only [moveToFace, e, abs_neg, abs_of_pos hc0, hfl, hx, if_pos hi', neg_lt_zero, if_pos hc0, hlo, Option.map_some]
  · refine ⟨(1 + c) / 2, by linarith, by linarith, ?_⟩
    have e : (1 + c) / 2 * 2 - 1 = c := by ring
    simp only [moveToFace, e, abs_of_pos hc0, hfl, hx, if_pos hi', if_neg (not_lt.2 hc0.le), hhi, Option.map_some]

/-! ## The hypotheses are met -/

example : sampleOnBoundary [(-1 : ℚ), 0, 2] [1, 4, 3] [[1 / 2, 1 / 4, 0], [0, 1 / 2, 1 / 2]] [1 / 10, 3 / 4] =
    some [[0, 1, 2], [-1, 4, 5 / 2]] := by
  decide +kernel

example : ∀ (i : ℕ) (l h : ℚ), [(-1 : ℚ), 0, 2][i]? = some l → [(1 : ℚ), 4, 3][i]? = some h → l ≤ h := by
  intro i l h h1 h2
  rcases i with _ | _ | _ | i <;> simp at h1 h2 <;> subst h1 <;> subst h2 <;> norm_num

end NNL.Props
