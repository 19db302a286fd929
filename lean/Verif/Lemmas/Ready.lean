import Verif.Lemmas.MipStep
import Verif.Lemmas.NetEnc
import Verif.Props.MicOps
import Verif.Props.AbsEnc
import Verif.Props.Network

/-!
# Constraint sets that can be added to a program

The network encoding, the absolute-value encoding and substitutions of them satisfy `MIC.Ready`.
-/

set_option linter.unusedSectionVars false

namespace NNL.Model

open NNL NNL.Spec NNL.Props

variable {K : Type*} [Field K] [LinearOrder K] [IsStrictOrderedRing K]

/-! ### The network encoding -/

theorem placeRow_shape (first : Bool) (xs n offPrev off : ℕ) (r : LRow K)
    (h1 : first = true → r.x.length = xs) (h2 : first = false → offPrev + r.x.length ≤ n)
    (h3 : off + r.s.length ≤ n) (h4 : off + r.z.length ≤ n) :
    (placeRow first xs n offPrev off r).x.length = xs ∧
      (placeRow first xs n offPrev off r).s.length = n ∧
      (placeRow first xs n offPrev off r).z.length = n := by
  cases first
  · have h2 := h2 rfl
    have e : (setSlice (zeros n) offPrev r.x).length = n := by
      rw [length_setSlice _ _ _ (by simpa using h2)]; simp
    refine ⟨by simp [placeRow], ?_, ?_⟩
    · simp only [placeRow, Bool.false_eq_true, if_false]
      rw [length_setSlice _ _ _ (by rw [e]; exact h3), e]
    · simp only [placeRow]
      rw [length_setSlice _ _ _ (by simpa using h4)]; simp
  · refine ⟨by simpa [placeRow] using h1 rfl, ?_, ?_⟩
    · simp only [placeRow, if_true]
      rw [length_setSlice _ _ _ (by simpa using h3)]; simp
    · simp only [placeRow]
      rw [length_setSlice _ _ _ (by simpa using h4)]; simp

theorem hiddenCons_shape {xs n : ℕ} {zlo zup : Vec K} {m : ℕ} :
    ∀ (hs : List (Lin K × Act K)) (first : Bool) (offPrev off k : ℕ) (c : Cons K),
      hiddenCons xs n zlo zup first offPrev off hs = some c → HidOk k hs m →
      off + numUnits hs ≤ n → (first = true → k = xs) → (first = false → offPrev + k ≤ n) →
      ∀ r, r ∈ c.ineq ∨ r ∈ c.eq → r.x.length = xs ∧ r.s.length = n ∧ r.z.length = n := by
  intro hs
  induction hs with
  | nil =>
    intro first offPrev off k c h
    simp only [hiddenCons, Option.some.injEq] at h
    subst h
    simp
  | cons p rest ih =>
    obtain ⟨l, a⟩ := p
    intro first offPrev off k c h hok hn hf hf2
    rw [hiddenCons] at h
    obtain ⟨rfl, hl, hrest⟩ := hok
    rw [numUnits] at hn
    split at h
    · rename_i c1 r1 e1 e2
      simp only [Option.some.injEq] at h
      subst h
      have s1 := layerCons_shape e1 hl.1
      have s2 := ih false off (off + l.W.length) l.W.length r1 e2 hrest (by omega) (by simp)
        (fun _ => by omega)
      have s3 : ∀ r, r ∈ c1.ineq ∨ r ∈ c1.eq →
          (placeRow first xs n offPrev off r).x.length = xs ∧
          (placeRow first xs n offPrev off r).s.length = n ∧
          (placeRow first xs n offPrev off r).z.length = n := by
        intro r hr
        obtain ⟨a1, a2, a3⟩ := s1 r hr
        exact placeRow_shape first xs n offPrev off r (fun h => by rw [a1]; exact hf h)
          (fun h => by rw [a1]; exact hf2 h) (by omega) (by omega)
      intro r hr
      simp only [List.mem_append, List.mem_map] at hr
      rcases hr with (⟨r', hr', rfl⟩ | hr) | (⟨r', hr', rfl⟩ | hr)
      · exact s3 r' (Or.inl hr')
      · exact s2 r (Or.inl hr)
      · exact s3 r' (Or.inr hr')
      · exact s2 r (Or.inr hr)
    · cases h

theorem shapeIs_rowsTensor (n : ℕ) (f : LRow K → Vec K) (rs : List (LRow K))
    (h : ∀ r ∈ rs, (f r).length = n) : ShapeIs (rowsTensor n f rs) rs.length n := by
  intro M hM
  simp only [rowsTensor, Option.some.injEq] at hM
  subst hM
  refine ⟨by simp, rfl, ?_⟩
  intro r hr
  simp only [List.mem_map] at hr
  obtain ⟨r', hr', rfl⟩ := hr
  exact h r' hr'

theorem shapeIs_none (r n : ℕ) : ShapeIs (none : Option (Tensor2 K)) r n := by
  intro M hM; cases hM

theorem outputCons_ready {net : Net K} {xs : ℕ} {zlo zup xlo xup : Vec K} {c : MIC K}
    (h : outputConsGivenBounds net xs zlo zup xlo xup = some c) (hok : net.Ok xs) :
    c.Ready xs ∧ c.numSlack = numUnits net.hidden ∧ c.numBinary = numUnits net.hidden ∧
      c.numOut = net.last.W.length ∧
      c.Aout_slack = some ⟨numUnits net.hidden, net.last.W.map fun w =>
        setSlice (zeros (numUnits net.hidden)) (lastOff net.hidden) w⟩ ∧
      c.Cout = some net.last.b ∧ c.Aout_input = none ∧ c.Aout_binary = none := by
  unfold outputConsGivenBounds at h
  simp only at h
  split at h
  · cases h
  · cases h
  · rename_i p ps co hne hco
    have hne' : net.hidden ≠ [] := by rw [hne]; simp
    have hsh := hiddenCons_shape (m := net.last.inF) net.hidden true 0 0 xs co hco hok.1 (by omega)
      (by simp) (by simp)
    have hbox : ∀ r ∈ boxRows xs (numUnits net.hidden) xlo xup,
        r.x.length = xs ∧ r.s.length = numUnits net.hidden ∧ r.z.length = numUnits net.hidden := by
      intro r hr
      simp only [boxRows, List.mem_append, List.mem_map] at hr
      rcases hr with ⟨i, -, rfl⟩ | ⟨i, -, rfl⟩ <;> simp
    have hin : ∀ r ∈ boxRows xs (numUnits net.hidden) xlo xup ++ co.ineq,
        r.x.length = xs ∧ r.s.length = numUnits net.hidden ∧ r.z.length = numUnits net.hidden := by
      intro r hr
      rcases List.mem_append.1 hr with hr | hr
      · exact hbox r hr
      · exact hsh r (Or.inl hr)
    cases h
    refine ⟨⟨⟨⟨shapeIs_none _ _, ?_, shapeIs_none _ _, ?_, ?_, ?_, ?_, by simp, ?_, ?_, ?_, by simp⟩,
      rfl, rfl, rfl⟩, ⟨?_, ?_, ?_, ?_, ?_, ?_⟩, ⟨?_, ?_⟩⟩, rfl, rfl, by simp [MIC.numOut], rfl, rfl, rfl,
      rfl⟩
    · intro M hM
      simp only [Option.some.injEq] at hM
      subst hM
      refine ⟨rfl, rfl, ?_⟩
      intro r hr
      simp only [List.mem_map] at hr
      obtain ⟨w, hw, rfl⟩ := hr
      have := hok.2.1 w hw
      have e := lastOff_add hok.1 hne'
      simp only
      rw [length_setSlice _ _ _ (by rw [length_zeros, this]; omega)]
      simp
    · intro v hv
      simp only [Option.some.injEq] at hv
      subst hv
      simpa [MIC.numOut, Lin.b] using hok.2.2
    · have := shapeIs_rowsTensor xs LRow.x _ fun r hr => (hin r hr).1
      simpa [MIC.numIneq, MIC.numInput, numVar, rowsTensor] using this
    · have := shapeIs_rowsTensor _ LRow.s _ fun r hr => (hin r hr).2.1
      simpa [MIC.numIneq, MIC.numSlack, numVar, rowsTensor] using this
    · have := shapeIs_rowsTensor _ LRow.z _ fun r hr => (hin r hr).2.2
      simpa [MIC.numIneq, MIC.numBinary, numVar, rowsTensor] using this
    · have := shapeIs_rowsTensor xs LRow.x co.eq fun r hr => (hsh r (Or.inr hr)).1
      simpa [MIC.numEq, MIC.numInput, numVar, rowsTensor] using this
    · have := shapeIs_rowsTensor _ LRow.s co.eq fun r hr => (hsh r (Or.inr hr)).2.1
      simpa [MIC.numEq, MIC.numSlack, numVar, rowsTensor] using this
    · have := shapeIs_rowsTensor _ LRow.z co.eq fun r hr => (hsh r (Or.inr hr)).2.2
      simpa [MIC.numEq, MIC.numBinary, numVar, rowsTensor] using this
    all_goals simp [rowsTensor]

/-! ### The absolute-value encoding -/

theorem absEnc_ready {lo up : K} {flag : Bool} {c : MIC K} (h : absEnc lo up flag = some c) :
    c.Ready 1 ∧ c.numSlack = 1 ∧ c.numBinary = (if flag then 3 else 1) ∧ c.numOut = 1 ∧
      c.Ain_input.isSome ∧ c.input_lo = none ∧ c.input_up = none ∧
      c.Aout_slack = some ⟨1, [[1]]⟩ ∧ c.Aout_input = none ∧ c.Aout_binary = none ∧ c.Cout = none := by
  unfold absEnc at h
  split at h
  swap
  · cases h
  rename_i hlu
  simp only [Option.some.injEq] at h
  cases flag
  · simp only [Bool.false_eq_true, if_false, not_false_eq_true, and_true, and_false] at h
    split_ifs at h with c1 c2 c3
    all_goals first
      | (exfalso; rcases le_or_gt 0 lo with q | q
         · exact c2 q
         · rcases le_or_gt up 0 with q' | q'
           · exact c3 q'
           · exact c1 ⟨q, q'⟩)
      | (subst h
         refine ⟨⟨⟨⟨?_, ?_, ?_, ?_, ?_, ?_, ?_, ?_, ?_, ?_, ?_, ?_⟩, ?_, ?_, ?_⟩, ⟨?_, ?_, ?_, ?_, ?_, ?_⟩,
           ⟨?_, ?_⟩⟩, ?_⟩ <;>
         simp [ShapeIs, MIC.numOut, MIC.numIneq, MIC.numEq, MIC.numInput, MIC.numSlack, MIC.numBinary,
           numVar, Tensor2.Ok, colT, finBound, MIC.slackSize, MIC.binSize, varSize])
  · simp only [if_true, not_true_eq_false, and_true, and_false, if_false] at h
    split_ifs at h with c1 c2 c3 c4 c5
    all_goals first
      | (exfalso; rcases lt_trichotomy 0 lo with q | q | q
         · exact c2 q
         · exact c3 q.symm
         · rcases lt_trichotomy up 0 with q' | q' | q'
           · exact c4 q'
           · exact c5 q'
           · exact c1 ⟨q, q'⟩)
      | (subst h
         refine ⟨⟨⟨⟨?_, ?_, ?_, ?_, ?_, ?_, ?_, ?_, ?_, ?_, ?_, ?_⟩, ?_, ?_, ?_⟩, ⟨?_, ?_, ?_, ?_, ?_, ?_⟩,
           ⟨?_, ?_⟩⟩, ?_⟩ <;>
         simp [ShapeIs, MIC.numOut, MIC.numIneq, MIC.numEq, MIC.numInput, MIC.numSlack, MIC.numBinary,
           numVar, Tensor2.Ok, colT, finBound, MIC.slackSize, MIC.binSize, varSize, zerosM, zeros])

/-! ### Substitution -/

theorem transformInput_ready {c : MIC K} {A : Tensor2 K} {b : Vec K} (hA : A.Ok)
    (hc : c.Ready A.rows.length) (hb : A.rows.length = b.length)
    (hi : c.Ain_input.isSome ∨ c.Aeq_input.isSome ∨ c.Aout_input.isSome)
    (hlo : c.input_lo = none) (hup : c.input_up = none) :
    ∃ c', c.transformInput A b = some c' ∧ c'.Ready A.cols ∧ c'.numSlack = c.numSlack ∧
      c'.numBinary = c.numBinary ∧ c'.numOut = c.numOut ∧
      (∀ x s z, c'.Feas x s z ↔ c.Feas (vadd (matVec A.rows x) b) s z) ∧
      ∀ x s z, c'.out x s z = c.out (vadd (matVec A.rows x) b) s z := by
  have hw : (c.Ain_input.isSome ∨ c.Aeq_input.isSome ∨ c.Aout_input.isSome) →
      c.numInput = b.length := fun _ => by rw [hc.sized.input, hb]
  obtain ⟨c', h, hsh, h1, h2, h3, h4, h5, h6, hr⟩ := C26_transform_input c hc.sized.shaped A hA b hb hw
  obtain ⟨c'', h', hfe⟩ := C26_transform_input_feas c hc.sized.shaped A hA b hb hw hlo hup
  rw [h] at h'
  simp only [Option.some.injEq] at h'
  subst h'
  have key : c'.Ain_slack = c.Ain_slack ∧ c'.Aeq_slack = c.Aeq_slack ∧ c'.Ain_binary = c.Ain_binary ∧
      c'.Aeq_binary = c.Aeq_binary ∧ c'.input_lo = none ∧ c'.input_up = none ∧
      c'.slack_lo = c.slack_lo ∧ c'.slack_up = c.slack_up ∧ c'.binary_lo = c.binary_lo ∧
      c'.binary_up = c.binary_up ∧ (c.Ain_input ≠ none → c'.Ain_input ≠ none) ∧
      (c.Aeq_input ≠ none → c'.Aeq_input ≠ none) := by
    have hrow : ∀ (M : Option (Tensor2 K)) rhs i, transformRows A b M rhs = some i → M ≠ none →
        i.1 ≠ none := by
      intro M rhs i hh hM
      unfold transformRows at hh
      split at hh
      · exact absurd rfl hM
      · cases hh
      · split at hh
        · simp only [Option.some.injEq] at hh
          subst hh
          simp
        · cases hh
    unfold MIC.transformInput at h
    split at h
    · rename_i i e o e1 e2 e3
      simp only [Option.some.injEq] at h
      subst h
      exact ⟨rfl, rfl, rfl, rfl, hlo, hup, rfl, rfl, rfl, rfl, hrow _ _ _ e1, hrow _ _ _ e2⟩
    · cases h
  obtain ⟨k1, k2, k3, k4, k5, k6, k7, k8, k9, k10, k11, k12⟩ := key
  refine ⟨c', h, ⟨⟨hsh, h6 hi, ?_, ?_⟩, ⟨?_, ?_, ?_, ?_, ?_, ?_⟩, ⟨?_, ?_⟩⟩, h1, h2, h5, hfe,
    fun x s z => (hr x s z).2⟩
  · rw [h1, ← hc.sized.slack]; simp [MIC.slackSize, k1, k2, k7, k8]
  · rw [h2, ← hc.sized.binary]; simp [MIC.binSize, k3, k4, k9, k10]
  · simp [k5]
  · simp [k6]
  · rw [k7, h1]; exact hc.lens.slo
  · rw [k8, h1]; exact hc.lens.sup
  · rw [k9, h2]; exact hc.lens.blo
  · rw [k10, h2]; exact hc.lens.bup
  · rw [h3, k1, k3]
    intro hp
    rcases hc.rows.ineq hp with q | q
    · exact Or.inl (k11 q)
    · exact Or.inr q
  · rw [h4, k2, k4]
    intro hp
    rcases hc.rows.eq hp with q | q
    · exact Or.inl (k12 q)
    · exact Or.inr q

end NNL.Model
