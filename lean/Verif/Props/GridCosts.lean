import Verif.Model.GridCosts
import Verif.Props.ValueIteration
import Mathlib.Tactic.Linarith
import Mathlib.Tactic.Positivity
import Mathlib.Tactic.FieldSimp
import Mathlib.Tactic.Ring
import Mathlib.Data.Rat.Floor

/-!
C118: the costs between neighbouring grid points.
-/

namespace NNL.Props

open NNL NNL.Model

variable {S : Type}

theorem foldl_inv {α β : Type} {f : β → α → β} {Inv : β → Prop} {L : List α} (h : ∀ s, ∀ x ∈ L, Inv s → Inv (f s x)) {s : β} (hs : Inv s) :
    Inv (L.foldl f s) := by
  induction L generalizing s with
  | nil => exact hs
  | cons y l ih => exact ih (fun s x hx => h s x (List.mem_cons_of_mem _ hx)) (h s y List.mem_cons_self hs)

theorem foldl_cover {α β : Type} {f : β → α → β} {Inv G : β → Prop} {L : List α} {x0 : α} (h0 : x0 ∈ L)
    (h : ∀ s, ∀ x ∈ L, Inv s → Inv (f s x)) (hg : ∀ s, Inv s → G (f s x0)) (hk : ∀ s, ∀ x ∈ L, Inv s → G s → G (f s x)) {s : β} (hs : Inv s) :
    G (L.foldl f s) := by
  induction L generalizing s with
  | nil => cases h0
  | cons y l ih =>
    rw [List.foldl_cons]
    rcases List.mem_cons.1 h0 with rfl | hm
    · exact (foldl_inv (Inv := fun s => Inv s ∧ G s) (L := l)
        (fun s x hx hI => ⟨h s x (List.mem_cons_of_mem _ hx) hI.1, hk s x (List.mem_cons_of_mem _ hx) hI.1 hI.2⟩)
        ⟨h s x0 List.mem_cons_self hs, hg s hs⟩).2
    · exact ih hm (fun s x hx => h s x (List.mem_cons_of_mem _ hx)) (fun s x hx => hk s x (List.mem_cons_of_mem _ hx))
        (h s y List.mem_cons_self hs)

/-- **C118** (complete). The entry for two grid points is the solution of the trajectory optimization between them if they differ and the second lies
in the window around the first, and otherwise it is infinite. -/
theorem C118_complete (na nxy n0 n1 n2 : ℕ) (solve : ℕ → ℕ → Option S) (ns i j : ℕ) :
    rComplete na nxy n0 n1 n2 solve ns i j = if i < ns ∧ j < ns ∧ inWindow na nxy n0 n1 n2 i j then solve i j else none := by
  classical
  let step : ℕ → CostArr S → ℕ → CostArr S := fun i r j =>
    if inWindow na nxy n0 n1 n2 i j then
      match solve i j with
      | some v => setCell r i j (some v)
      | none => r
    else r
  let T : CostArr S := fun i j => if i < ns ∧ j < ns ∧ inWindow na nxy n0 n1 n2 i j then solve i j else none
  let Inv : CostArr S → Prop := fun r => ∀ a b, r a b = none ∨ r a b = T a b
  have hstep : ∀ a < ns, ∀ b < ns, ∀ r, Inv r → Inv (step a r b) ∧ step a r b a b = T a b := by
    intro a ha b hb r hr
    have hT : inWindow na nxy n0 n1 n2 a b → T a b = solve a b := fun hw => if_pos ⟨ha, hb, hw⟩
    by_cases hw : inWindow na nxy n0 n1 n2 a b
    · rcases hs : solve a b with _ | v
      · have e : step a r b = r := by simp only [step, if_pos hw, hs]
        rw [e]
        refine ⟨hr, ?_⟩
        rcases hr a b with h | h
        · rw [h, hT hw, hs]
        · exact h
      · have e : step a r b = setCell r a b (some v) := by simp only [step, if_pos hw, hs]
        rw [e]
        refine ⟨fun c d => ?_, by simp [setCell, hT hw, hs]⟩
        unfold setCell
        split_ifs with hc
        · right; rw [hc.1, hc.2, hT hw, hs]
        · exact hr c d
    · have e : step a r b = r := by simp only [step, if_neg hw]
      rw [e]
      refine ⟨hr, ?_⟩
      have hT' : T a b = none := if_neg fun h => hw h.2.2
      rcases hr a b with h | h
      · rw [h, hT']
      · exact h
  have hkeep : ∀ a < ns, ∀ b < ns, ∀ r, Inv r → r i j = T i j → step a r b i j = T i j := by
    intro a ha b hb r hr hij
    by_cases hc : i = a ∧ j = b
    · rw [hc.1, hc.2]; exact (hstep a ha b hb r hr).2
    · have : step a r b i j = r i j := by
        simp only [step]
        split_ifs
        · rcases solve a b with _ | v
          · rfl
          · simp only [setCell, if_neg hc]
        · rfl
      rw [this, hij]
  have hrow : ∀ a < ns, ∀ r, Inv r → Inv ((List.range ns).foldl (step a) r) := fun a ha r hr =>
    foldl_inv (fun s x hx hI => (hstep a ha x (List.mem_range.1 hx) s hI).1) hr
  have hinit : Inv fun _ _ => none := fun _ _ => Or.inl rfl
  change (List.range ns).foldl (fun r i => (List.range ns).foldl (step i) r) (fun _ _ => none) i j = T i j
  by_cases hin : i < ns ∧ j < ns
  · refine foldl_cover (Inv := Inv) (G := fun r => r i j = T i j) (x0 := i) (List.mem_range.2 hin.1)
      (fun s x hx hI => hrow x (List.mem_range.1 hx) s hI) (fun s hI => ?_) (fun s x hx hI hG => ?_) hinit
    · exact foldl_cover (Inv := Inv) (G := fun r => r i j = T i j) (x0 := j) (List.mem_range.2 hin.2)
        (fun s x hx hI => (hstep i hin.1 x (List.mem_range.1 hx) s hI).1) (fun s hI => (hstep i hin.1 j hin.2 s hI).2)
        (fun s x hx hI hG => hkeep i hin.1 x (List.mem_range.1 hx) s hI hG) hI
    · exact (foldl_inv (Inv := fun s => Inv s ∧ s i j = T i j) (fun s y hy hIG =>
        ⟨(hstep x (List.mem_range.1 hx) y (List.mem_range.1 hy) s hIG.1).1,
          hkeep x (List.mem_range.1 hx) y (List.mem_range.1 hy) s hIG.1 hIG.2⟩) ⟨hI, hG⟩).2
  · have hT : T i j = none := if_neg fun h => hin ⟨h.1, h.2.1⟩
    have := foldl_inv (Inv := Inv) (fun s x hx hI => hrow x (List.mem_range.1 hx) s hI) hinit i j
    rcases this with h | h
    · rw [hT]; exact h
    · exact h

/-- The solution does not change when both grid points are moved along the first two axes. -/
def MoveInvariant (na nxy ns : ℕ) (solve : ℕ → ℕ → Option S) : Prop :=
  ∀ i j i' j', i < ns → j < ns → i' < ns → j' < ns →
    let a := flatTo3d na nxy i
    let b := flatTo3d na nxy j
    let a' := flatTo3d na nxy i'
    let b' := flatTo3d na nxy j'
    b.1 + a'.1 = b'.1 + a.1 → b.2.1 + a'.2.1 = b'.2.1 + a.2.1 → a.2.2 = a'.2.2 → b.2.2 = b'.2.2 → solve i j = solve i' j'

/-- **C118** (duplicate). If the solutions do not depend on the place in the plane, `calculate_r_duplicate`, which solves from the four corners only,
returns the same as `calculate_r_complete`. -/
theorem C118_duplicate (na nxy n0 n1 n2 : ℕ) (solve : ℕ → ℕ → Option S) (hinv : MoveInvariant na nxy (nxy * nxy * na) solve) :
    rDuplicate na nxy n0 n1 n2 solve (nxy * nxy * na) = rComplete na nxy n0 n1 n2 solve (nxy * nxy * na) := by
  classical
  funext i j
  rw [C118_complete]
  obtain ⟨hix1, hix2⟩ := @C102_index na nxy
  generalize hns : nxy * nxy * na = ns at *
  let W := inWindow na nxy n0 n1 n2
  let B := blockIdx na nxy n0 n1 n2
  let T : CostArr S := fun i j => if i < ns ∧ j < ns ∧ W i j then solve i j else none
  have hTw : ∀ a < ns, ∀ b < ns, W a b → T a b = solve a b := fun a ha b hb hw => if_pos ⟨ha, hb, hw⟩
  let Inv : CostArr S → Prop := fun r => ∀ a b, r a b = none ∨ r a b = T a b
  -- an assignment of the right value
  have hset : ∀ r a b v, Inv r → v = T a b → Inv (setCell r a b v) := by
    intro r a b v hr hv c d
    unfold setCell
    split_ifs with hc
    · right; rw [hc.1, hc.2, hv]
    · exact hr c d
  have hsetk : ∀ r a b v, v = T a b → r i j = T i j → setCell r a b v i j = T i j := by
    intro r a b v hv hr
    unfold setCell
    split_ifs with hc
    · rw [hc.1, hc.2, hv]
    · exact hr
  -- two pairs with the same place in the block
  have hsame : ∀ a b a' b', a < ns → b < ns → a' < ns → b' < ns → (flatTo3d na nxy a).2.2 = (flatTo3d na nxy a').2.2 → W a b → W a' b' →
      B a b = B a' b' → solve a b = solve a' b' := by
    intro a b a' b' ha hb ha' hb' h2 hw hw' hB
    simp only [W, inWindow] at hw hw'
    simp only [B, blockIdx, Prod.mk.injEq] at hB
    exact hinv a b a' b' ha hb ha' hb' (by omega) (by omega) h2 (by omega)
  -- the block of one angle
  let InvB : ℕ → CostBlock S → Prop := fun i2 t => ∀ a < ns, ∀ b < ns, (flatTo3d na nxy a).2.2 = i2 → W a b →
    t (B a b) = none ∨ t (B a b) = solve a b
  let cs : ℕ → ℕ → (CostArr S × CostBlock S) → ℕ → (CostArr S × CostBlock S) := fun i2 i s j =>
    if inWindow na nxy n0 n1 n2 i j then
      match solve i j with
      | some v => (setCell s.1 i j (some v), fun e => if e = blockIdx na nxy n0 n1 n2 i j then some v else s.2 e)
      | none => s
    else s
  have hcs : ∀ i2 a, a < ns → (flatTo3d na nxy a).2.2 = i2 → ∀ b < ns, ∀ s : CostArr S × CostBlock S, Inv s.1 ∧ InvB i2 s.2 →
      (Inv (cs i2 a s b).1 ∧ InvB i2 (cs i2 a s b).2) ∧ (W a b → (cs i2 a s b).2 (B a b) = solve a b) ∧
      (s.1 i j = T i j → (cs i2 a s b).1 i j = T i j) ∧
      ∀ c < ns, ∀ d < ns, (flatTo3d na nxy c).2.2 = i2 → W c d → s.2 (B c d) = solve c d → (cs i2 a s b).2 (B c d) = solve c d := by
    intro i2 a ha ha2 b hb s hs
    by_cases hw : W a b
    · rcases hv : solve a b with _ | v
      · have e : cs i2 a s b = s := by simp only [cs]; rw [if_pos hw, hv]
        rw [e]
        refine ⟨hs, fun _ => ?_, id, fun _ _ _ _ _ _ h => h⟩
        rcases hs.2 a ha b hb ha2 hw with h | h
        · exact h
        · rw [h, hv]
      · have e : cs i2 a s b = (setCell s.1 a b (some v), fun e => if e = B a b then some v else s.2 e) := by
          simp only [cs]; rw [if_pos hw, hv]
        rw [e]
        have hT : some v = T a b := by rw [hTw a ha b hb hw, hv]
        refine ⟨⟨hset _ _ _ _ hs.1 hT, ?_⟩, fun _ => by simp, fun h => hsetk _ _ _ _ hT h, ?_⟩
        · intro c hc d hd h2 hw'
          dsimp only
          split_ifs with hB
          · right; rw [← hv]; exact hsame a b c d ha hb hc hd (ha2.trans h2.symm) hw hw' hB.symm
          · exact hs.2 c hc d hd h2 hw'
        · intro c hc d hd h2 hw' h
          dsimp only
          split_ifs with hB
          · rw [← hv]; exact hsame a b c d ha hb hc hd (ha2.trans h2.symm) hw hw' hB.symm
          · exact h
    · have e : cs i2 a s b = s := by simp only [cs]; rw [if_neg hw]
      rw [e]
      exact ⟨hs, fun h => absurd h hw, id, fun _ _ _ _ _ _ h => h⟩
  -- the pass of one angle
  have hpass : ∀ i2 < na, ∀ r, Inv r → Inv (duplicateStep na nxy n0 n1 n2 solve ns r i2) ∧
      (r i j = T i j → duplicateStep na nxy n0 n1 n2 solve ns r i2 i j = T i j) ∧
      (i < ns → j < ns → (flatTo3d na nxy i).2.2 = i2 → duplicateStep na nxy n0 n1 n2 solve ns r i2 i j = T i j) := by
    intro i2 hi2 r hr
    by_cases hpos : nxy = 0
    · have h0 : ns = 0 := by rw [← hns, hpos]; simp
      have e : duplicateStep na nxy n0 n1 n2 solve ns r i2 = r := by
        subst h0 hpos
        simp [duplicateStep, gridCorners, cornerStep]
      rw [e]
      exact ⟨hr, id, fun h => by omega⟩
    have hcor : ∀ c ∈ gridCorners nxy, c.1 < nxy ∧ c.2 < nxy := by
      intro c hc
      simp only [gridCorners, List.mem_cons, List.not_mem_nil, or_false] at hc
      rcases hc with rfl | rfl | rfl | rfl <;> (dsimp only; omega)
    have hcorner : ∀ c ∈ gridCorners nxy, threeDToFlat na nxy c.1 c.2 i2 < ns ∧
        flatTo3d na nxy (threeDToFlat na nxy c.1 c.2 i2) = (c.1, c.2, i2) := fun c hc =>
      hix1 c.1 c.2 i2 (hcor c hc).1 (hcor c hc).2 hi2
    -- after the corners
    let s := (gridCorners nxy).foldl (cornerStep na nxy n0 n1 n2 solve ns i2) (r, fun _ => none)
    have hcstep : ∀ c ∈ gridCorners nxy, ∀ s : CostArr S × CostBlock S, Inv s.1 ∧ InvB i2 s.2 →
        Inv (cornerStep na nxy n0 n1 n2 solve ns i2 s c).1 ∧ InvB i2 (cornerStep na nxy n0 n1 n2 solve ns i2 s c).2 := by
      intro c hc s hs
      obtain ⟨g1, g2⟩ := hcorner c hc
      exact foldl_inv (f := cs i2 (threeDToFlat na nxy c.1 c.2 i2)) (Inv := fun s : CostArr S × CostBlock S => Inv s.1 ∧ InvB i2 s.2)
        (fun s x hx hI => (hcs i2 _ g1 (by rw [g2]) x (List.mem_range.1 hx) s hI).1) hs
    have hinit : Inv r ∧ InvB i2 (fun _ => none) := ⟨hr, fun _ _ _ _ _ _ => Or.inl rfl⟩
    have hs : Inv s.1 ∧ InvB i2 s.2 := foldl_inv (Inv := fun s : CostArr S × CostBlock S => Inv s.1 ∧ InvB i2 s.2)
      (fun s x hx hI => hcstep x hx s hI) hinit
    have hsk : r i j = T i j → s.1 i j = T i j := by
      intro hrij
      refine (foldl_inv (Inv := fun s : CostArr S × CostBlock S => (Inv s.1 ∧ InvB i2 s.2) ∧ s.1 i j = T i j) ?_ ⟨hinit, hrij⟩).2
      intro s c hc hI
      obtain ⟨g1, g2⟩ := hcorner c hc
      exact foldl_inv (f := cs i2 (threeDToFlat na nxy c.1 c.2 i2))
        (Inv := fun s : CostArr S × CostBlock S => (Inv s.1 ∧ InvB i2 s.2) ∧ s.1 i j = T i j)
        (fun s x hx hI => by
          have := hcs i2 _ g1 (by rw [g2]) x (List.mem_range.1 hx) s hI.1
          exact ⟨this.1, this.2.2.1 hI.2⟩) hI
    -- the block is complete
    have hblock : ∀ a < ns, ∀ b < ns, (flatTo3d na nxy a).2.2 = i2 → W a b → s.2 (B a b) = solve a b := by
      intro a ha b hb h2 hw
      obtain ⟨a0, a1, a2, ea, ha0, ha1, ha2, -⟩ := hix2 a ha
      obtain ⟨b0, b1, b2, eb, hb0, hb1, hb2, -⟩ := hix2 b hb
      have hw0 := hw
      simp only [W, inWindow, ea, eb] at hw0
      rw [ea] at h2
      dsimp only at h2
      subst h2
      -- the corner and the point that see the same move
      let c : ℕ × ℕ := (if a0 ≤ b0 then 0 else nxy - 1, if a1 ≤ b1 then 0 else nxy - 1)
      have hc : c ∈ gridCorners nxy := by
        simp only [c, gridCorners]
        split_ifs <;> simp
      obtain ⟨g1, g2⟩ := hcorner c hc
      have hd0 : c.1 + b0 - a0 < nxy ∧ c.1 + b0 - a0 + a0 = c.1 + b0 := by simp only [c]; split_ifs <;> omega
      have hd1 : c.2 + b1 - a1 < nxy ∧ c.2 + b1 - a1 + a1 = c.2 + b1 := by simp only [c]; split_ifs <;> omega
      obtain ⟨g3, g4⟩ := hix1 (c.1 + b0 - a0) (c.2 + b1 - a1) b2 hd0.1 hd1.1 hb2
      generalize threeDToFlat na nxy (c.1 + b0 - a0) (c.2 + b1 - a1) b2 = d at g3 g4
      have hne : threeDToFlat na nxy c.1 c.2 a2 ≠ d := by
        intro h
        rw [← h, g2] at g4
        simp only [Prod.mk.injEq] at g4
        refine hw0.1 ?_
        have hab : a0 = b0 ∧ a1 = b1 ∧ a2 = b2 := by omega
        obtain ⟨a0', a1', a2', ea', -, -, -, fa⟩ := hix2 a ha
        obtain ⟨b0', b1', b2', eb', -, -, -, fb⟩ := hix2 b hb
        rw [ea] at ea'
        rw [eb] at eb'
        cases ea'
        cases eb'
        rw [← fa, ← fb, hab.1, hab.2.1, hab.2.2]
      have hwc : W (threeDToFlat na nxy c.1 c.2 a2) d := by
        simp only [W, inWindow, g2, g4]
        exact ⟨hne, by omega, by omega, by omega⟩
      have hBc : B (threeDToFlat na nxy c.1 c.2 a2) d = B a b := by
        simp only [B, blockIdx, g2, g4, ea, eb, Prod.mk.injEq]
        exact ⟨by omega, by omega, trivial⟩
      have hsc : solve (threeDToFlat na nxy c.1 c.2 a2) d = solve a b :=
        hsame _ _ _ _ g1 g3 ha hb (by rw [g2, ea]) hwc hw hBc
      have hfin : s.2 (B (threeDToFlat na nxy c.1 c.2 a2) d) = solve (threeDToFlat na nxy c.1 c.2 a2) d := by
        refine foldl_cover (Inv := fun s : CostArr S × CostBlock S => Inv s.1 ∧ InvB a2 s.2)
          (G := fun s : CostArr S × CostBlock S => s.2 (B (threeDToFlat na nxy c.1 c.2 a2) d) = solve (threeDToFlat na nxy c.1 c.2 a2) d)
          hc (fun s x hx hI => hcstep x hx s hI) (fun s hI => ?_) (fun s x hx hI hG => ?_) hinit
        · exact foldl_cover (f := cs a2 (threeDToFlat na nxy c.1 c.2 a2)) (Inv := fun s : CostArr S × CostBlock S => Inv s.1 ∧ InvB a2 s.2)
            (G := fun s : CostArr S × CostBlock S => s.2 (B (threeDToFlat na nxy c.1 c.2 a2) d) = solve (threeDToFlat na nxy c.1 c.2 a2) d)
            (List.mem_range.2 g3) (fun s x hx hI => (hcs a2 _ g1 (by rw [g2]) x (List.mem_range.1 hx) s hI).1)
            (fun s hI => (hcs a2 _ g1 (by rw [g2]) d g3 s hI).2.1 hwc)
            (fun s x hx hI hG => (hcs a2 _ g1 (by rw [g2]) x (List.mem_range.1 hx) s hI).2.2.2 _ g1 d g3 (by rw [g2]) hwc hG) hI
        · obtain ⟨k1, k2⟩ := hcorner x hx
          exact (foldl_inv (f := cs a2 (threeDToFlat na nxy x.1 x.2 a2)) (Inv := fun s : CostArr S × CostBlock S =>
            (Inv s.1 ∧ InvB a2 s.2) ∧ s.2 (B (threeDToFlat na nxy c.1 c.2 a2) d) = solve (threeDToFlat na nxy c.1 c.2 a2) d)
            (fun s y hy hI => by
              have := hcs a2 _ k1 (by rw [k2]) y (List.mem_range.1 hy) s hI.1
              exact ⟨this.1, this.2.2.2 _ g1 d g3 (by rw [g2]) hwc hI.2⟩) ⟨hI, hG⟩).2
      rw [← hBc, hfin, hsc]
    -- the copies
    have hbw : ∀ a b, inBlock na nxy n0 n1 n2 a b ↔ W a b := by
      intro a b
      simp only [inBlock, W, inWindow]
      constructor
      · rintro ⟨h0, h1, h2, h3⟩; exact ⟨h0, by omega, by omega, by omega⟩
      · rintro ⟨h0, h1, h2, h3⟩; exact ⟨h0, by omega, by omega, by omega⟩
    let cp : ℕ → CostArr S → ℕ → CostArr S := fun i r j =>
      if inBlock na nxy n0 n1 n2 i j then setCell r i j (s.2 (blockIdx na nxy n0 n1 n2 i j)) else r
    have hcp : ∀ a < ns, (flatTo3d na nxy a).2.2 = i2 → ∀ b < ns, ∀ r, Inv r → Inv (cp a r b) ∧ cp a r b a b = T a b ∧
        (r i j = T i j → cp a r b i j = T i j) := by
      intro a ha ha2 b hb r hr
      by_cases hw : W a b
      · have e : cp a r b = setCell r a b (s.2 (B a b)) := by simp only [cp]; rw [if_pos ((hbw a b).2 hw)]
        have hT : s.2 (B a b) = T a b := by rw [hblock a ha b hb ha2 hw, hTw a ha b hb hw]
        rw [e]
        exact ⟨hset _ _ _ _ hr hT, by rw [← hT]; simp [setCell], hsetk _ _ _ _ hT⟩
      · have e : cp a r b = r := by simp only [cp]; rw [if_neg fun h => hw ((hbw a b).1 h)]
        rw [e]
        have hT : T a b = none := if_neg fun h => hw h.2.2
        refine ⟨hr, ?_, id⟩
        rcases hr a b with h | h
        · rw [h, hT]
        · exact h
    have hidx : ∀ a0 ∈ List.range nxy, ∀ a1 ∈ List.range nxy, threeDToFlat na nxy a0 a1 i2 < ns ∧
        (flatTo3d na nxy (threeDToFlat na nxy a0 a1 i2)).2.2 = i2 := by
      intro a0 h0 a1 h1
      obtain ⟨k1, k2⟩ := hix1 a0 a1 i2 (List.mem_range.1 h0) (List.mem_range.1 h1) hi2
      exact ⟨k1, by rw [k2]⟩
    have e : duplicateStep na nxy n0 n1 n2 solve ns r i2 = (List.range nxy).foldl (fun r i0 => (List.range nxy).foldl (fun r i1 =>
        (List.range ns).foldl (cp (threeDToFlat na nxy i0 i1 i2)) r) r) s.1 := rfl
    have hrowI : ∀ a0 ∈ List.range nxy, ∀ a1 ∈ List.range nxy, ∀ r, Inv r →
        Inv ((List.range ns).foldl (cp (threeDToFlat na nxy a0 a1 i2)) r) ∧
        (r i j = T i j → (List.range ns).foldl (cp (threeDToFlat na nxy a0 a1 i2)) r i j = T i j) := by
      intro a0 h0 a1 h1 r hr
      obtain ⟨k1, k2⟩ := hidx a0 h0 a1 h1
      refine ⟨foldl_inv (fun s x hx hI => (hcp _ k1 k2 x (List.mem_range.1 hx) s hI).1) hr, fun hG => ?_⟩
      exact (foldl_inv (Inv := fun r => Inv r ∧ r i j = T i j) (fun s x hx hI =>
        ⟨(hcp _ k1 k2 x (List.mem_range.1 hx) s hI.1).1, (hcp _ k1 k2 x (List.mem_range.1 hx) s hI.1).2.2 hI.2⟩) ⟨hr, hG⟩).2
    have hrow2 : ∀ a0 ∈ List.range nxy, ∀ r, Inv r →
        Inv ((List.range nxy).foldl (fun r i1 => (List.range ns).foldl (cp (threeDToFlat na nxy a0 i1 i2)) r) r) ∧
        (r i j = T i j → (List.range nxy).foldl (fun r i1 => (List.range ns).foldl (cp (threeDToFlat na nxy a0 i1 i2)) r) r i j = T i j) := by
      intro a0 h0 r hr
      refine ⟨foldl_inv (fun s x hx hI => (hrowI a0 h0 x hx s hI).1) hr, fun hG => ?_⟩
      exact (foldl_inv (Inv := fun r => Inv r ∧ r i j = T i j) (fun s x hx hI =>
        ⟨(hrowI a0 h0 x hx s hI.1).1, (hrowI a0 h0 x hx s hI.1).2 hI.2⟩) ⟨hr, hG⟩).2
    rw [e]
    refine ⟨foldl_inv (fun s x hx hI => (hrow2 x hx s hI).1) hs.1, fun hG => ?_, fun hi hj h2 => ?_⟩
    · exact (foldl_inv (Inv := fun r => Inv r ∧ r i j = T i j) (fun s x hx hI =>
        ⟨(hrow2 x hx s hI.1).1, (hrow2 x hx s hI.1).2 hI.2⟩) ⟨hs.1, hsk hG⟩).2
    · obtain ⟨x0, x1, x2, ex, hx0, hx1, hx2, fx⟩ := hix2 i hi
      rw [ex] at h2
      dsimp only at h2
      subst h2
      refine foldl_cover (Inv := Inv) (G := fun r => r i j = T i j) (x0 := x0) (List.mem_range.2 hx0)
        (fun s x hx hI => (hrow2 x hx s hI).1) (fun s hI => ?_) (fun s x hx hI hG => (hrow2 x hx s hI).2 hG) hs.1
      refine foldl_cover (Inv := Inv) (G := fun r => r i j = T i j) (x0 := x1) (List.mem_range.2 hx1)
        (fun s x hx hI => (hrowI x0 (List.mem_range.2 hx0) x hx s hI).1) (fun s hI => ?_)
        (fun s x hx hI hG => (hrowI x0 (List.mem_range.2 hx0) x hx s hI).2 hG) hI
      rw [fx]
      refine foldl_cover (Inv := Inv) (G := fun r => r i j = T i j) (x0 := j) (List.mem_range.2 hj)
        (fun s x hx hI => (hcp i hi (by rw [ex]) x (List.mem_range.1 hx) s hI).1)
        (fun s hI => (hcp i hi (by rw [ex]) j hj s hI).2.1)
        (fun s x hx hI hG => (hcp i hi (by rw [ex]) x (List.mem_range.1 hx) s hI).2.2 hG) hI
  have hinit : Inv fun _ _ => none := fun _ _ => Or.inl rfl
  change (List.range na).foldl (duplicateStep na nxy n0 n1 n2 solve ns) (fun _ _ => none) i j = T i j
  by_cases hin : i < ns ∧ j < ns
  · obtain ⟨x0, x1, x2, ex, hx0, hx1, hx2, fx⟩ := hix2 i hin.1
    exact foldl_cover (Inv := Inv) (G := fun r => r i j = T i j) (x0 := x2) (List.mem_range.2 hx2)
      (fun s x hx hI => (hpass x (List.mem_range.1 hx) s hI).1)
      (fun s hI => (hpass x2 hx2 s hI).2.2 hin.1 hin.2 (by rw [ex]))
      (fun s x hx hI hG => (hpass x (List.mem_range.1 hx) s hI).2.1 hG) hinit
  · have hT : T i j = none := if_neg fun h => hin ⟨h.1, h.2.1⟩
    rcases foldl_inv (Inv := Inv) (fun s x hx hI => (hpass x (List.mem_range.1 hx) s hI).1) hinit i j with h | h
    · rw [hT]; exact h
    · exact h

/-- **C118** (window). Two grid points whose coordinates differ by at most the reach are at most the window size apart. -/
theorem C118_window {K : Type} [Field K] [LinearOrder K] [IsStrictOrderedRing K] [FloorRing K] {reach lo up : K} {n : ℕ} (hn : 2 ≤ n)
    (hlo : lo < up) {a b : ℕ} (h : |linAt lo up n b - linAt lo up n a| ≤ reach) :
    (a : ℤ) ≤ b + windowSize reach lo up n ∧ (b : ℤ) ≤ a + windowSize reach lo up n := by
  have hn' : (0 : K) < n - 1 := by
    have : (2 : K) ≤ n := by exact_mod_cast hn
    linarith
  have hd : 0 < up - lo := sub_pos.2 hlo
  have e : linAt lo up n b - linAt lo up n a = ((b : K) - a) * ((up - lo) / (n - 1)) := by unfold linAt; ring
  rw [e, abs_mul, abs_of_pos (div_pos hd hn')] at h
  have h1 : |(b : K) - a| ≤ reach / (up - lo) * (n - 1) := by
    rw [← mul_div_assoc, div_le_iff₀ hn'] at h
    rw [div_mul_eq_mul_div, le_div_iff₀ hd]
    exact h
  have h2 : |(b : K) - a| ≤ (windowSize reach lo up n : K) := h1.trans (Int.le_ceil _)
  rw [abs_le] at h2
  constructor
  · have : ((a : ℤ) : K) ≤ ((b + windowSize reach lo up n : ℤ) : K) := by push_cast; linarith [h2.1]
    exact_mod_cast this
  · have : ((b : ℤ) : K) ≤ ((a + windowSize reach lo up n : ℤ) : K) := by push_cast; linarith [h2.2]
    exact_mod_cast this

/-- **C118** (no pair is lost). If the optimization succeeds only between points that differ by at most the reach along every axis, the costs of all
pairs of different points are right: those outside of the window have no solution. -/
theorem C118_all {K : Type} [Field K] [LinearOrder K] [IsStrictOrderedRing K] [FloorRing K] {na nxy n0 n1 n2 : ℕ} {ρ0 ρ1 ρ2 lo up alo aup : K}
    (hxy : 2 ≤ nxy) (hna : 2 ≤ na) (h0 : lo < up) (h1 : alo < aup) (hn0 : (n0 : ℤ) = windowSize ρ0 lo up nxy)
    (hn1 : (n1 : ℤ) = windowSize ρ1 lo up nxy) (hn2 : (n2 : ℤ) = windowSize ρ2 alo aup na) (solve : ℕ → ℕ → Option S)
    (hreach : ∀ i j, (solve i j).isSome → |linAt lo up nxy (flatTo3d na nxy j).1 - linAt lo up nxy (flatTo3d na nxy i).1| ≤ ρ0 ∧
      |linAt lo up nxy (flatTo3d na nxy j).2.1 - linAt lo up nxy (flatTo3d na nxy i).2.1| ≤ ρ1 ∧
      |linAt alo aup na (flatTo3d na nxy j).2.2 - linAt alo aup na (flatTo3d na nxy i).2.2| ≤ ρ2) {i j : ℕ} (hi : i < nxy * nxy * na)
    (hj : j < nxy * nxy * na) (hij : i ≠ j) : rComplete na nxy n0 n1 n2 solve (nxy * nxy * na) i j = solve i j := by
  rw [C118_complete]
  split_ifs with h
  · rfl
  · rcases hs : solve i j with _ | v
    · rfl
    · exfalso
      obtain ⟨g0, g1, g2⟩ := hreach i j (by rw [hs]; rfl)
      have k0 := C118_window hxy h0 g0
      have k1 := C118_window hxy h0 g1
      have k2 := C118_window hna h1 g2
      rw [← hn0] at k0
      rw [← hn1] at k1
      rw [← hn2] at k2
      refine h ⟨hi, hj, ?_⟩
      simp only [inWindow]
      exact ⟨hij, by omega, by omega, by omega⟩

/-! ## An example -/

/-- A solver whose cost is the distance of the moves, with at most one step along the axes. -/
def exSolve (i j : ℕ) : Option ℕ :=
  let a := flatTo3d 2 3 i
  let b := flatTo3d 2 3 j
  if a.2.2 ≤ b.2.2 then some ((b.1 - a.1) + (a.1 - b.1) + ((b.2.1 - a.2.1) + (a.2.1 - b.2.1))) else none

/-- The hypothesis of `C118_duplicate`. -/
example : MoveInvariant 2 3 18 exSolve := by
  intro i j i' j' _ _ _ _
  dsimp only [exSolve]
  intro h0 h1 h2 h3
  rw [h2, h3]
  split_ifs
  · congr 1; omega
  · rfl

example : rDuplicate 2 3 1 1 1 exSolve 18 0 6 = some 1 ∧ rDuplicate 2 3 1 1 1 exSolve 18 8 2 = some 1 ∧
    rDuplicate 2 3 1 1 1 exSolve 18 1 0 = none ∧ rDuplicate 2 3 1 1 1 exSolve 18 0 12 = none := by decide +kernel
example : windowSize (42 / 25 : ℚ) (-1) 1 20 = 16 := by
  unfold windowSize
  rw [Int.ceil_eq_iff]
  norm_num

end NNL.Props
