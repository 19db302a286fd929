import Verif.Model.ImageNets

/-!
C119: the shapes of encoded and decoded images.
-/

namespace NNL.Props

open NNL NNL.Model

theorem layersOut_cons (l : ImgLayer) (L : List ImgLayer) (s : ImgShape) : layersOut (l :: L) s = (l.out s).bind (layersOut L) := rfl

theorem layersOut_nil (s : ImgShape) : layersOut [] s = some s := rfl

theorem conv_out (c k s p w h cout : ℕ) : (ImgLayer.conv c cout k s p).out (c, w, h) =
    if k ≤ w + 2 * p ∧ k ≤ h + 2 * p then some (cout, (w + 2 * p - k) / s + 1, (h + 2 * p - k) / s + 1) else none := by
  simp only [ImgLayer.out, convSize, if_true]
  by_cases h1 : k ≤ w + 2 * p <;> by_cases h2 : k ≤ h + 2 * p <;> simp [h1, h2]

theorem bind_ite_some {α β : Type} (P : Prop) [Decidable P] (a : α) (f : α → Option β) :
    (if P then some a else none).bind f = if P then f a else none := by split_ifs <;> rfl

theorem ite_ite_none {α : Type} (P Q : Prop) [Decidable P] [Decidable Q] (a : Option α) :
    (if P then (if Q then a else none) else none) = if P ∧ Q then a else none := by
  by_cases hP : P <;> by_cases hQ : Q <;> simp [hP, hQ]

theorem isSome_ite_some {α : Type} (P : Prop) [Decidable P] (a : α) : (if P then some a else none).isSome = true ↔ P := by
  split_ifs with h <;> simp [h]

/-- **C119** (linear). For every size the linear encoder returns two vectors of the latent dimension and the linear decoder an image of the given
size. -/
theorem C119_linear (z w h : ℕ) (gray : Bool) :
    ((linearEncoder1 z w h gray).bind fun E => E.forward (imgChannels gray, w, h)) = some (z, z) ∧
    ((linearDecoder1 z w h gray).bind fun D => D.forward z) = some (imgChannels gray, w, h) := by
  constructor
  · simp [linearEncoder1, EncNet.forward, layersOut, linearsOut, linearOut]; omega
  · simp [linearDecoder1, DecNet.forward, layersOut, linearsOut, linearOut]

/-- **C119** (first encoder). It can be built exactly if both sizes are at least 4, and then it returns two vectors of the latent dimension for images
of the given size. -/
theorem C119_encoder1 (z w h : ℕ) (gray : Bool) :
    ((cnnEncoder1 z w h gray).isSome ↔ 4 ≤ w ∧ 4 ≤ h) ∧
    (4 ≤ w → 4 ≤ h → ((cnnEncoder1 z w h gray).bind fun E => E.forward (imgChannels gray, w, h)) = some (z, z)) := by
  have hl : (layersOut [.conv (imgChannels gray) 16 3 1 1, .pool, .conv 16 4 3 1 1, .pool] (imgChannels gray, w, h)).isSome = true ↔
      4 ≤ w ∧ 4 ≤ h := by
    simp only [layersOut_cons, layersOut_nil, conv_out, bind_ite_some, ite_ite_none, isSome_ite_some, show ∀ c w h, ImgLayer.pool.out (c, w, h) =
      if 2 ≤ w ∧ 2 ≤ h then some (c, w / 2, h / 2) else none from fun _ _ _ => rfl]
    omega
  constructor
  · rw [← hl]
    simp only [cnnEncoder1]
    rcases layersOut _ _ with _ | t <;> simp
  · intro hw hh
    obtain ⟨t, ht⟩ := Option.isSome_iff_exists.1 (hl.2 ⟨hw, hh⟩)
    have : min z (z * 2) = z ∧ z * 2 - z = z := by omega
    simp [cnnEncoder1, EncNet.forward, ht, linearsOut, linearOut, this]

/-- **C119** (second encoder). It can be built exactly if both sizes are at least 33, and then it returns two vectors of the latent dimension. -/
theorem C119_encoder2 (z w h : ℕ) (gray : Bool) :
    ((cnnEncoder2 z w h gray).isSome ↔ 33 ≤ w ∧ 33 ≤ h) ∧
    (33 ≤ w → 33 ≤ h → ((cnnEncoder2 z w h gray).bind fun E => E.forward (imgChannels gray, w, h)) = some (z, z)) := by
  have hl : (layersOut [.conv (imgChannels gray) 32 5 1 0, .conv 32 32 5 2 0, .conv 32 32 5 2 0, .conv 32 10 5 2 0]
      (imgChannels gray, w, h)).isSome = true ↔ 33 ≤ w ∧ 33 ≤ h := by
    simp only [layersOut_cons, layersOut_nil, conv_out, bind_ite_some, ite_ite_none, isSome_ite_some]
    omega
  constructor
  · rw [← hl]
    simp only [cnnEncoder2]
    rcases layersOut _ _ with _ | t <;> simp
  · intro hw hh
    obtain ⟨t, ht⟩ := Option.isSome_iff_exists.1 (hl.2 ⟨hw, hh⟩)
    have : min z (z * 2) = z ∧ z * 2 - z = z := by omega
    simp [cnnEncoder2, EncNet.forward, ht, linearsOut, linearOut, this]

/-- **C119** (first decoder). It returns an image exactly if both sizes are at least 4; its sizes are rounded down to multiples of 4. -/
theorem C119_decoder1 (z w h : ℕ) (gray : Bool) :
    ((cnnDecoder1 z w h gray).bind fun D => D.forward z) =
      if 4 ≤ w ∧ 4 ≤ h then some (imgChannels gray, w / 4 * 4, h / 4 * 4) else none := by
  simp only [cnnDecoder1, Option.bind_some, DecNet.forward, linearsOut, linearOut, List.foldlM_cons, List.foldlM_nil, if_true,
    Option.bind_eq_bind, Option.pure_def, Nat.one_mul, layersOut_cons, layersOut_nil, ImgLayer.out, bind_ite_some, ite_ite_none, true_and]
  have hc : ((1 ≤ w / 4 ∧ 1 ≤ h / 4) ∧ 1 ≤ (w / 4 - 1) * 2 + 2 ∧ 1 ≤ (h / 4 - 1) * 2 + 2) ↔ 4 ≤ w ∧ 4 ≤ h := by omega
  by_cases h4 : 4 ≤ w ∧ 4 ≤ h
  · rw [if_pos h4, if_pos (hc.2 h4)]
    simp only [Option.some.injEq, Prod.mk.injEq, true_and]
    omega
  · rw [if_neg h4, if_neg fun h => h4 (hc.1 h)]

/-- **C119** (second decoder). It returns an image exactly if both sizes are at least 32; its sizes are rounded down to multiples of 4. -/
theorem C119_decoder2 (z w h : ℕ) (gray : Bool) :
    ((cnnDecoder2 z w h gray).bind fun D => D.forward z) =
      if 32 ≤ w ∧ 32 ≤ h then some (imgChannels gray, w / 4 * 4, h / 4 * 4) else none := by
  have hd : ∀ n : ℕ, 28 ≤ n → decoder2Size n = ((n / 4 : ℕ) : ℤ) - 7 := by
    intro n hn
    unfold decoder2Size
    have e : ((n : ℤ) - 4).tdiv 2 = ((n : ℤ) - 4) / 2 := Int.tdiv_eq_ediv_of_nonneg (by omega)
    rw [e, Int.tdiv_eq_ediv_of_nonneg (by omega)]
    omega
  have hs : ∀ n : ℕ, n < 28 → decoder2Size n < 0 := by
    intro n hn
    have : ∀ n : Fin 28, decoder2Size n < 0 := by decide
    exact this ⟨n, hn⟩
  by_cases h28 : 28 ≤ w ∧ 28 ≤ h
  · obtain ⟨hw, hh⟩ := h28
    have ew := hd w hw
    have eh := hd h hh
    have tw : (decoder2Size w).toNat = w / 4 - 7 := by omega
    have th : (decoder2Size h).toNat = h / 4 - 7 := by omega
    unfold cnnDecoder2
    rw [if_pos ⟨by omega, by omega⟩, tw, th]
    simp only [Option.bind_some, DecNet.forward, linearsOut, linearOut, List.foldlM_cons, List.foldlM_nil, if_true,
      Option.bind_eq_bind, Option.pure_def, Nat.one_mul, layersOut_cons, layersOut_nil, ImgLayer.out, bind_ite_some, ite_ite_none, true_and]
    by_cases h4 : 32 ≤ w ∧ 32 ≤ h
    · rw [if_pos h4, if_pos (by omega)]
      simp only [Option.some.injEq, Prod.mk.injEq, true_and]
      omega
    · rw [if_neg h4, if_neg (by omega)]
  · unfold cnnDecoder2
    rw [if_neg, if_neg (by omega)]
    · rfl
    · rintro ⟨h1, h2⟩
      by_cases hw : 28 ≤ w
      · have := hs h (by omega); omega
      · have := hs w (by omega); omega

/-- **C119** (pairs). A convolutional encoder and its decoder fit together for images of the given size exactly if both sizes are multiples of 4 that
are not too small. -/
theorem C119_pairs (z w h : ℕ) (gray : Bool) :
    ((((cnnEncoder1 z w h gray).bind fun E => E.forward (imgChannels gray, w, h)) = some (z, z) ∧
      ((cnnDecoder1 z w h gray).bind fun D => D.forward z) = some (imgChannels gray, w, h)) ↔ 4 ∣ w ∧ 4 ∣ h ∧ 0 < w ∧ 0 < h) ∧
    ((((cnnEncoder2 z w h gray).bind fun E => E.forward (imgChannels gray, w, h)) = some (z, z) ∧
      ((cnnDecoder2 z w h gray).bind fun D => D.forward z) = some (imgChannels gray, w, h)) ↔ 4 ∣ w ∧ 4 ∣ h ∧ 36 ≤ w ∧ 36 ≤ h) := by
  rw [C119_decoder1, C119_decoder2]
  constructor
  · constructor
    · rintro ⟨-, h2⟩
      split_ifs at h2 with hc
      simp only [Option.some.injEq, Prod.mk.injEq, true_and] at h2
      omega
    · intro hd
      refine ⟨(C119_encoder1 z w h gray).2 (by omega) (by omega), ?_⟩
      rw [if_pos (by omega)]
      simp only [Option.some.injEq, Prod.mk.injEq, true_and]
      omega
  · constructor
    · rintro ⟨h1, h2⟩
      split_ifs at h2 with hc
      simp only [Option.some.injEq, Prod.mk.injEq, true_and] at h2
      have h3 : (cnnEncoder2 z w h gray).isSome := by
        rcases he : cnnEncoder2 z w h gray with _ | E
        · rw [he] at h1; cases h1
        · rfl
      have := (C119_encoder2 z w h gray).1.1 h3
      omega
    · intro hd
      refine ⟨(C119_encoder2 z w h gray).2 (by omega) (by omega), ?_⟩
      rw [if_pos (by omega)]
      simp only [Option.some.injEq, Prod.mk.injEq, true_and]
      omega

/-- **C119** (channels). Two stacked images have two channels in grayscale and six in colour, and every encoder takes and every decoder returns exactly
such images. -/
theorem C119_channels (z w h : ℕ) (gray : Bool) (hw : 36 ≤ w) (hh : 36 ≤ h) (dw : 4 ∣ w) (dh : 4 ∣ h) :
    let c := 2 * if gray then 1 else 3
    ((linearEncoder1 z w h gray).bind fun E => E.forward (c, w, h)) = some (z, z) ∧
    ((linearDecoder1 z w h gray).bind fun D => D.forward z) = some (c, w, h) ∧
    ((cnnEncoder1 z w h gray).bind fun E => E.forward (c, w, h)) = some (z, z) ∧
    ((cnnDecoder1 z w h gray).bind fun D => D.forward z) = some (c, w, h) ∧
    ((cnnEncoder2 z w h gray).bind fun E => E.forward (c, w, h)) = some (z, z) ∧
    ((cnnDecoder2 z w h gray).bind fun D => D.forward z) = some (c, w, h) := by
  intro c
  have hc : c = imgChannels gray := by cases gray <;> rfl
  rw [hc]
  have h1 := (C119_pairs z w h gray).1.2 ⟨dw, dh, by omega, by omega⟩
  have h2 := (C119_pairs z w h gray).2.2 ⟨dw, dh, hw, hh⟩
  exact ⟨(C119_linear z w h gray).1, (C119_linear z w h gray).2, h1.1, h1.2, h2.1, h2.2⟩

/-! ## Examples -/

/-- The default size of the data generator. -/
example : ((cnnEncoder2 5 80 80 true).bind fun E => E.forward (2, 80, 80)) = some (5, 5) ∧
    ((cnnDecoder2 5 80 80 true).bind fun D => D.forward 5) = some (2, 80, 80) := by decide
example : ((cnnDecoder1 5 50 50 false).bind fun D => D.forward 5) = some (6, 48, 48) := by decide

end NNL.Props
