import Verif.Model.Pattern
import Verif.Lemmas.NetBounds

/-! Helper lemmas about activation patterns and affine pieces. -/

set_option linter.unusedSectionVars false

namespace NNL.Model

open NNL NNL.Spec

variable {K : Type*} [Field K] [LinearOrder K] [IsStrictOrderedRing K]

theorem rowsLe_nil (x : Vec K) : RowsLe [] [] x := ⟨rfl, by simp⟩

theorem rowsLe_cons (r : Vec K) (c : K) (P : Mat K) (q x : Vec K) :
    RowsLe (r :: P) (c :: q) x ↔ dot r x ≤ c ∧ RowsLe P q x := by
  simp [RowsLe]; tauto

theorem rowsLe_append {P P' : Mat K} {q q' x : Vec K} (h : P.length = q.length) :
    RowsLe (P ++ P') (q ++ q') x ↔ RowsLe P q x ∧ RowsLe P' q' x := by
  simp only [RowsLe, List.length_append, List.zip_append h, List.mem_append, or_imp, forall_and]
  constructor
  · rintro ⟨h1, h2, h3⟩; exact ⟨⟨h, h2⟩, by omega, h3⟩
  · rintro ⟨⟨_, h2⟩, h1, h3⟩; exact ⟨by omega, h2, h3⟩

theorem act_gain_of_sign (a : Act K) (b : Bool) (y : K) (h : SignOk b y) : a.gain b * y = a.f y := by
  cases b with
  | true =>
    have h0 : 0 ≤ y := h.1 rfl
    cases a
    · simp [Act.gain, Act.f, relu, h0]
    · simp [Act.gain, Act.f, leaky_of_nonneg h0]
  | false =>
    have h0 : y ≤ 0 := h.2 rfl
    cases a
    · simp [Act.gain, Act.f, relu, h0, Act.slope]
    · simp [Act.gain, Act.f, leaky_of_nonpos h0, Act.slope]

theorem zipWith_gain_of_sign (a : Act K) (p : List Bool) (y : Vec K)
    (h : List.Forall₂ SignOk p y) : List.zipWith (fun b y => a.gain b * y) p y = y.map a.f := by
  induction h with
  | nil => rfl
  | cons h _ ih => simp [act_gain_of_sign a _ _ h, ih]

theorem rgapRows_spec (a : Act K) (n : ℕ) : ∀ (p : List Bool) (A : Mat K) (b : Vec K),
    p.length = A.length → b.length = A.length → HasCols A n →
    (rgapRows a p A b).1.length = (rgapRows a p A b).2.1.length ∧
    (∀ x, RowsLe (rgapRows a p A b).1 (rgapRows a p A b).2.1 x ↔
      List.Forall₂ SignOk p (vadd (matVec A x) b)) ∧
    (∀ x, vadd (matVec (rgapRows a p A b).2.2.1 x) (rgapRows a p A b).2.2.2
      = List.zipWith (fun f y => a.gain f * y) p (vadd (matVec A x) b)) ∧
    (∀ v, matVec (rgapRows a p A b).2.2.1 v
      = List.zipWith (fun f y => a.gain f * y) p (matVec A v)) ∧
    HasCols (rgapRows a p A b).2.2.1 n ∧ (rgapRows a p A b).2.2.1.length = A.length ∧
    (rgapRows a p A b).2.2.2.length = A.length := by
  intro p
  induction p with
  | nil =>
    intro A b h1 h2 _
    have : A = [] := List.eq_nil_of_length_eq_zero h1.symm
    subst this
    have : b = [] := List.eq_nil_of_length_eq_zero h2
    subst this
    refine ⟨rfl, fun x => ?_, fun x => rfl, fun v => rfl, ?_, rfl, rfl⟩
    · simp [rgapRows, RowsLe, vadd]
    · intro r hr; simp [rgapRows] at hr
  | cons f fs ih =>
    intro A b h1 h2 hc
    cases A with
    | nil => simp at h1
    | cons r A => cases b with
      | nil => simp at h2
      | cons b bs =>
        simp only [List.length_cons, Nat.add_right_cancel_iff] at h1 h2
        obtain ⟨i1, i2, i3, i4, i5, i6, i7⟩ := ih A bs h1 h2 fun q hq => hc q (by simp [hq])
        have hr : r.length = n := hc r (by simp)
        have ev : ∀ x, vadd (matVec (r :: A) x) (b :: bs)
            = (dot r x + b) :: vadd (matVec A x) bs := fun x => rfl
        have em : ∀ x, matVec (r :: A) x = dot r x :: matVec A x := fun x => rfl
        cases f with
        | true =>
          have e : rgapRows a (true :: fs) (r :: A) (b :: bs) =
            (vneg r :: (rgapRows a fs A bs).1, b :: (rgapRows a fs A bs).2.1,
              r :: (rgapRows a fs A bs).2.2.1, b :: (rgapRows a fs A bs).2.2.2) := by
            simp [rgapRows]
          rw [e]
          refine ⟨by simp [i1], fun x => ?_, fun x => ?_, fun v => ?_, ?_, by simp [i6], by simp [i7]⟩
          · rw [rowsLe_cons, i2, ev, List.forall₂_cons, dot_vneg_left]
            refine and_congr_left fun _ => ?_
            simp only [SignOk, true_imp_iff, Bool.true_eq_false, false_imp_iff, and_true]
            constructor <;> intro h <;> linarith
          · rw [ev, List.zipWith_cons_cons, ← i3]
            simp [vadd, matVec, Act.gain]
          · rw [em, List.zipWith_cons_cons, ← i4]
            simp [matVec, Act.gain]
          · intro q hq
            rcases List.mem_cons.1 hq with rfl | hq
            · exact hr
            · exact i5 q hq
        | false =>
          obtain ⟨r', b', e, e1, e2, e3⟩ : ∃ r' b', rgapRows a (false :: fs) (r :: A) (b :: bs) =
            (r :: (rgapRows a fs A bs).1, -b :: (rgapRows a fs A bs).2.1,
              r' :: (rgapRows a fs A bs).2.2.1, b' :: (rgapRows a fs A bs).2.2.2) ∧
              (∀ x, dot r' x = a.slope * dot r x) ∧ b' = a.slope * b ∧ r'.length = n := by
            cases a with
            | relu =>
              exact ⟨zeros r.length, 0, by simp [rgapRows], fun x => by simp [Act.slope],
                by simp [Act.slope], by simp [hr]⟩
            | leaky s =>
              exact ⟨vsmul s r, s * b, by simp [rgapRows], fun x => by
                simp [Act.slope, dot_vsmul_left], by simp [Act.slope], by simp [hr]⟩
          rw [e]
          refine ⟨by simp [i1], fun x => ?_, fun x => ?_, fun v => ?_, ?_, by simp [i6], by simp [i7]⟩
          · rw [rowsLe_cons, i2, ev, List.forall₂_cons]
            refine and_congr_left fun _ => ?_
            simp only [SignOk, true_imp_iff, Bool.false_eq_true, false_imp_iff, true_and]
            constructor <;> intro h <;> linarith
          · rw [ev, List.zipWith_cons_cons, ← i3]
            simp only [vadd, matVec, List.map_cons, List.zipWith_cons_cons, e1, e2, Act.gain]
            simp [mul_add]
          · rw [em, List.zipWith_cons_cons, ← i4]
            simp [matVec, Act.gain, e1]
          · intro q hq
            rcases List.mem_cons.1 hq with rfl | hq
            · exact e3
            · exact i5 q hq

theorem hasCols_matMul {n : ℕ} (W A : Mat K) (h : HasCols A n) : HasCols (matMul n W A) n := by
  intro r hr
  obtain ⟨w, _, rfl⟩ := List.mem_map.1 hr
  exact length_vecMat n w A h

theorem vadd_assoc (a b c : Vec K) : vadd (vadd a b) c = vadd a (vadd b c) := by
  unfold vadd
  induction a generalizing b c with
  | nil => simp
  | cons a as ih => cases b with
    | nil => simp
    | cons b bs => cases c with
      | nil => simp
      | cons c cs => simp [ih, add_assoc]

theorem matVec_vadd (W : Mat K) (a b : Vec K) (h : a.length = b.length) :
    matVec W (vadd a b) = vadd (matVec W a) (matVec W b) := by
  induction W with
  | nil => rfl
  | cons r W ih =>
    simp only [matVec, vadd] at ih ⊢
    simp only [List.map_cons, List.zipWith_cons_cons, ih]
    congr 1
    exact dot_vadd_right r a b h

theorem eval_affine (l : Lin K) (n : ℕ) (A : Mat K) (b x : Vec K) (hA : HasCols A n)
    (hb : b.length = A.length) :
    vadd (matVec (matMul n l.W A) x) (vadd (matVec l.W b) (l.bias.getD (zeros l.W.length)))
      = l.eval (vadd (matVec A x) b) := by
  unfold Lin.eval
  rw [matVec_matMul n _ _ _ hA, matVec_vadd _ _ _ (by simp [hb]), vadd_assoc]
  rfl

theorem rgapHid_spec (n : ℕ) {m : ℕ} : ∀ (hs : List (Lin K × Act K)) (ps : List (List Bool)) (k : ℕ)
    (A : Mat K) (b : Vec K) (P : Mat K) (q : Vec K) (A' : Mat K) (b' : Vec K),
    rgapHid n hs ps A b = some (P, q, A', b') → HidOk k hs m → HasCols A n → A.length = k →
    b.length = k →
    P.length = q.length ∧
    (∀ x, RowsLe P q x ↔ Realises hs (vadd (matVec A x) b) (ps.take hs.length)) ∧
    (∀ x, vadd (matVec A' x) b' = pieceHid hs ps (vadd (matVec A x) b)) ∧
    (∀ v, matVec A' v = dirHid hs ps (matVec A v)) ∧ HasCols A' n ∧ A'.length = m ∧
    b'.length = m := by
  intro hs
  induction hs with
  | nil =>
    intro ps k A b P q A' b' h hok hA hk hb
    cases h
    have hm : k = m := hok
    exact ⟨rfl, fun x => by simp [RowsLe, Realises, preacts], fun x => by simp [pieceHid],
      fun v => by simp [dirHid], hA, by omega, by omega⟩
  | cons lp hs ih =>
    obtain ⟨l, a⟩ := lp
    intro ps k A b P q A' b' h hok hA hk hb
    obtain ⟨hin, hl, hrest⟩ := hok
    cases ps with
    | nil => simp [rgapHid] at h
    | cons p ps =>
      unfold rgapHid at h
      simp only at h
      split at h
      · rename_i hp
        obtain ⟨⟨P2, q2, A2, b2⟩, hr, he⟩ := Option.map_eq_some_iff.1 h
        cases he
        have hb1 : (vadd (matVec l.W b) (l.bias.getD (zeros l.W.length))).length = l.W.length := by
          have := hl.2
          simp only [Lin.b] at this
          simp [this]
        obtain ⟨r1, r2, r3, r4, r5, r6, r7⟩ := rgapRows_spec a n p (matMul n l.W A)
          (vadd (matVec l.W b) (l.bias.getD (zeros l.W.length))) (by rw [length_matMul, hp])
          (by rw [hb1, length_matMul]) (hasCols_matMul _ _ hA)
        obtain ⟨s1, s2, s3, s4, s5, s6, s7⟩ := ih ps _ _ _ _ _ _ _ hr hrest r5
          (by rw [r6, length_matMul]) (by rw [r7, length_matMul])
        have hee := fun x => eval_affine l n A b x hA (by omega)
        refine ⟨by simp [r1, s1], fun x => ?_, fun x => ?_, fun v => ?_, s5, s6, s7⟩
        · rw [rowsLe_append r1, r2, s2, hee]
          simp only [List.length_cons, List.take_succ_cons, Realises, preacts, List.forall₂_cons]
          refine and_congr_right fun hsg => ?_
          rw [r3, hee, zipWith_gain_of_sign a _ _ hsg]
        · rw [s3, r3, hee]; rfl
        · rw [s4, r4, matVec_matMul n _ _ _ hA]; rfl
      · cases h

theorem rgapHid_isSome (n : ℕ) : ∀ (hs : List (Lin K × Act K)) (ps : List (List Bool)) (A : Mat K)
    (b : Vec K), (rgapHid n hs ps A b).isSome ↔ PatFits hs (ps.take hs.length) := by
  intro hs
  induction hs with
  | nil => intro ps A b; simp [rgapHid, PatFits]
  | cons lp hs ih =>
    obtain ⟨l, a⟩ := lp
    intro ps A b
    cases ps with
    | nil => simp [rgapHid, PatFits]
    | cons p ps =>
      unfold rgapHid
      simp only [List.length_cons, List.take_succ_cons, PatFits, List.forall₂_cons]
      split
      · rename_i hp
        rw [Option.isSome_map, ih]
        simp [hp, PatFits]
      · rename_i hp; simp [hp]

theorem matVec_eye (n : ℕ) (x : Vec K) (hx : x.length = n) : matVec (eye n) x = x := by
  apply vec_ext (by simp [hx])
  intro i hi
  have hi : i < n := by simpa using hi
  rw [getD_matVec, getD_eye _ _ hi, dot_eyeRow _ _ _ hi]

theorem hasCols_eye (n : ℕ) : HasCols (eye n : Mat K) n := by
  intro r hr
  obtain ⟨i, _, rfl⟩ := List.mem_map.1 hr
  simp

theorem vadd_zeros (x : Vec K) (n : ℕ) (h : x.length = n) : vadd x (zeros n) = x := by
  apply vec_ext (by simp [h])
  intro i hi
  rw [getD_vadd _ _ _ (by simp [h]), getD_zeros, add_zero]

/-! ### Patterns -/

theorem realises_computePattern (hs : List (Lin K × Act K)) (x : Vec K) :
    Realises hs x (computePattern hs x) := by
  induction hs generalizing x with
  | nil => exact List.Forall₂.nil
  | cons lp hs ih =>
    obtain ⟨l, a⟩ := lp
    refine List.Forall₂.cons ?_ (ih _)
    rw [List.forall₂_map_left_iff, List.forall₂_same]
    intro y _
    by_cases h : 0 ≤ y
    · simp [SignOk, h]
    · simp [SignOk, h, (not_le.1 h).le]

theorem extendUnit_mem (q : List (List Bool)) (y : K) (p : List Bool) :
    p ∈ extendUnit q y ↔ ∃ f ∈ q, ∃ b, SignOk b y ∧ p = f ++ [b] := by
  unfold extendUnit
  simp only [List.mem_flatMap]
  refine exists_congr fun f => and_congr_right fun _ => ?_
  rcases lt_trichotomy y 0 with h | h | h
  · have h1 : ¬ y > 0 := by simpa using h.le
    rw [if_neg h1, if_pos h]
    simp only [List.mem_singleton]
    constructor
    · rintro rfl; exact ⟨false, by simp [SignOk, h.le], rfl⟩
    · rintro ⟨b, hb, rfl⟩
      cases b
      · rfl
      · exact absurd (hb.1 rfl) (not_le.2 h)
  · subst h
    simp only [lt_irrefl, if_false, List.mem_cons, List.not_mem_nil, or_false]
    constructor
    · rintro (rfl | rfl)
      · exact ⟨true, by simp [SignOk], rfl⟩
      · exact ⟨false, by simp [SignOk], rfl⟩
    · rintro ⟨b, -, rfl⟩
      cases b
      · right; rfl
      · left; rfl
  · rw [if_pos h]
    simp only [List.mem_singleton]
    constructor
    · rintro rfl; exact ⟨true, by simp [SignOk, h.le], rfl⟩
    · rintro ⟨b, hb, rfl⟩
      cases b
      · exact absurd (hb.2 rfl) (not_le.2 h)
      · rfl

theorem layerPatterns_mem_aux (y : Vec K) : ∀ (q : List (List Bool)) (p : List Bool),
    p ∈ y.foldl extendUnit q ↔ ∃ f ∈ q, ∃ t, List.Forall₂ SignOk t y ∧ p = f ++ t := by
  induction y with
  | nil =>
    intro q p
    simp
  | cons y ys ih =>
    intro q p
    rw [List.foldl_cons, ih]
    constructor
    · rintro ⟨f, hf, t, ht, rfl⟩
      obtain ⟨g, hg, b, hb, rfl⟩ := (extendUnit_mem _ _ _).1 hf
      exact ⟨g, hg, b :: t, List.Forall₂.cons hb ht, by simp⟩
    · rintro ⟨f, hf, t, ht, rfl⟩
      obtain ⟨b, t, hb, ht', rfl⟩ := List.forall₂_cons_right_iff.1 ht
      exact ⟨f ++ [b], (extendUnit_mem _ _ _).2 ⟨f, hf, b, hb, rfl⟩, t, ht', by simp⟩

theorem layerPatterns_mem (y : Vec K) (p : List Bool) :
    p ∈ layerPatterns y ↔ List.Forall₂ SignOk p y := by
  simp [layerPatterns, layerPatterns_mem_aux]

theorem nodup_flatMap_append {α : Type*} (q : List (List α)) (g : List α → List α) (hq : q.Nodup)
    (hg : ∀ f ∈ q, (g f).Nodup) : (q.flatMap fun f => (g f).map fun b => f ++ [b]).Nodup := by
  rw [List.nodup_flatMap]
  refine ⟨fun f hf => ?_, ?_⟩
  · refine (hg f hf).map fun a b h => ?_
    simpa using h
  · refine hq.imp fun {f f'} hne => ?_
    simp only [Function.onFun, List.disjoint_left, List.mem_map, not_exists, not_and]
    rintro _ ⟨b, _, rfl⟩ b' _ h
    exact hne (List.append_inj_left' h rfl).symm

theorem extendUnit_nodup (q : List (List Bool)) (y : K) (hq : q.Nodup) :
    (extendUnit q y).Nodup := by
  have := nodup_flatMap_append q
    (fun _ => if y > 0 then [true] else if y < 0 then [false] else [true, false]) hq (by
      intro f _; split
      · simp
      · split <;> simp)
  unfold extendUnit
  convert this using 3
  split
  · rfl
  · split <;> rfl

theorem layerPatterns_nodup (y : Vec K) : (layerPatterns y).Nodup := by
  have : ∀ (y : Vec K) (q : List (List Bool)), q.Nodup → (y.foldl extendUnit q).Nodup := by
    intro y
    induction y with
    | nil => intro q h; exact h
    | cons y ys ih => intro q h; exact ih _ (extendUnit_nodup q y h)
  exact this y _ (by simp)

theorem allPatternsFrom_mem (hs : List (Lin K × Act K)) : ∀ (q : List (List (List Bool))) (x : Vec K)
    (p : List (List Bool)),
    p ∈ allPatternsFrom q hs x ↔ ∃ f ∈ q, ∃ t, Realises hs x t ∧ p = f ++ t := by
  induction hs with
  | nil =>
    intro q x p
    simp [allPatternsFrom, Realises, preacts]
  | cons lp hs ih =>
    obtain ⟨l, a⟩ := lp
    intro q x p
    rw [allPatternsFrom, ih]
    simp only [List.mem_flatMap, List.mem_map, layerPatterns_mem]
    constructor
    · rintro ⟨f, ⟨g, hg, c, hc, rfl⟩, t, ht, rfl⟩
      exact ⟨g, hg, c :: t, List.Forall₂.cons hc ht, by simp⟩
    · rintro ⟨f, hf, t, ht, rfl⟩
      obtain ⟨b, t, hb, ht', rfl⟩ := List.forall₂_cons_right_iff.1 ht
      exact ⟨f ++ [b], ⟨f, hf, b, hb, rfl⟩, t, ht', by simp⟩

theorem allPatternsFrom_nodup (hs : List (Lin K × Act K)) : ∀ (q : List (List (List Bool))) (x : Vec K),
    q.Nodup → (allPatternsFrom q hs x).Nodup := by
  induction hs with
  | nil => intro q x h; exact h
  | cons lp hs ih =>
    obtain ⟨l, a⟩ := lp
    intro q x h
    exact ih _ _ (nodup_flatMap_append q (fun _ => layerPatterns (l.eval x)) h
      fun _ _ => layerPatterns_nodup _)

theorem length_flatMap_const {α β : Type*} (q : List α) (g : α → List β) (c : ℕ)
    (h : ∀ f, (g f).length = c) : (q.flatMap g).length = q.length * c := by
  induction q with
  | nil => simp
  | cons a q ih => simp [ih, h, Nat.add_mul, add_comm]

theorem length_extendUnit (q : List (List Bool)) (y : K) :
    (extendUnit q y).length = q.length * (if y = 0 then 2 else 1) := by
  unfold extendUnit
  apply length_flatMap_const
  intro f
  rcases lt_trichotomy y 0 with h | h | h
  · simp [h, h.ne, not_lt.2 h.le]
  · simp [h]
  · simp [h, h.ne']

theorem length_layerPatterns (y : Vec K) :
    (layerPatterns y).length = 2 ^ (y.filter fun y => decide (y = 0)).length := by
  have : ∀ (y : Vec K) (q : List (List Bool)), (y.foldl extendUnit q).length
      = q.length * 2 ^ (y.filter fun y => decide (y = 0)).length := by
    intro y
    induction y with
    | nil => intro q; simp
    | cons y ys ih =>
      intro q
      rw [List.foldl_cons, ih, length_extendUnit]
      by_cases h : y = 0
      · simp [h, pow_succ]; ring
      · simp [h]
  simpa [layerPatterns] using this y [[]]

theorem length_allPatternsFrom (hs : List (Lin K × Act K)) : ∀ (q : List (List (List Bool)))
    (x : Vec K), (allPatternsFrom q hs x).length = q.length * 2 ^ numKinks (preacts hs x) := by
  induction hs with
  | nil => intro q x; simp [allPatternsFrom, numKinks, preacts]
  | cons lp hs ih =>
    obtain ⟨l, a⟩ := lp
    intro q x
    rw [allPatternsFrom, ih, length_flatMap_const _ _ _ (fun f => List.length_map _),
      length_layerPatterns]
    simp only [preacts, numKinks, List.flatten_cons, List.filter_append, List.length_append, pow_add]
    ring

/-! ### Flattening and indices -/

theorem splitBin_spec : ∀ (ws : List ℕ) (off : ℕ) (z : Vec K), off + ws.sum ≤ z.length →
    (splitBin ws off z).map List.length = ws ∧
    (splitBin ws off z).flatten = (slice z off ws.sum).map (fun b => decide (b = 1)) := by
  intro ws
  induction ws with
  | nil => intro off z _; simp [splitBin, slice]
  | cons w ws ih =>
    intro off z h
    simp only [List.sum_cons] at h
    obtain ⟨i1, i2⟩ := ih (off + w) z (by omega)
    refine ⟨?_, ?_⟩
    · simp only [splitBin, List.map_cons, i1, List.length_map, slice, List.length_take,
        List.length_drop]
      congr 1; omega
    · simp only [splitBin, List.flatten_cons, i2, List.sum_cons, slice]
      rw [← List.map_append, ← List.drop_drop, List.take_add]

theorem pattern_ext {p q : List (List Bool)} (h1 : p.map List.length = q.map List.length)
    (h2 : p.flatten = q.flatten) : p = q := by
  induction p generalizing q with
  | nil => cases q with
    | nil => rfl
    | cons _ _ => simp at h1
  | cons a p ih => cases q with
    | nil => simp at h1
    | cons b q =>
      simp only [List.map_cons, List.cons.injEq] at h1
      simp only [List.flatten_cons] at h2
      obtain ⟨e1, e2⟩ := List.append_inj h2 h1.1
      rw [e1, ih h1.2 e2]

theorem alphaLoop_bound : ∀ (ws is : List ℕ) (idx c r : ℕ), is.length = ws.length → idx < c →
    alphaLoop idx ws is = some r → r < c * ws.prod := by
  intro ws
  induction ws with
  | nil =>
    intro is idx c r _ h1 h
    simp only [alphaLoop, Option.some.injEq] at h
    simpa [← h] using h1
  | cons w ws ih =>
    intro is idx c r hl h1 h
    cases is with
    | nil => simp at hl
    | cons i is =>
      simp only [alphaLoop] at h
      split at h
      · rename_i hi
        have := ih is (idx * w + i) (c * w) r (by simpa using hl) (by nlinarith) h
        simpa [mul_assoc] using this
      · cases h

/-- All choices of one unit per layer, last layer varying fastest. -/
def pathsFrom : List (List ℕ) → List ℕ → List (List ℕ)
  | q, [] => q
  | q, w :: ws => pathsFrom (q.flatMap fun p => (List.range w).map fun j => p ++ [j]) ws

theorem alphaLoop_append : ∀ (ws ws' is is' : List ℕ) (idx : ℕ), is.length = ws.length →
    alphaLoop idx (ws ++ ws') (is ++ is') = (alphaLoop idx ws is).bind fun r => alphaLoop r ws' is' := by
  intro ws
  induction ws with
  | nil =>
    intro ws' is is' idx h
    have : is = [] := List.eq_nil_of_length_eq_zero h
    subst this
    simp [alphaLoop]
  | cons w ws ih =>
    intro ws' is is' idx h
    cases is with
    | nil => simp at h
    | cons i is =>
      simp only [List.cons_append, alphaLoop]
      split
      · exact ih _ _ _ _ (by simpa using h)
      · rfl

theorem range_mul (a b : ℕ) :
    List.range (a * b) = (List.range a).flatMap fun i => (List.range b).map fun j => i * b + j := by
  induction a with
  | zero => simp
  | succ a ih =>
    rw [Nat.succ_mul, List.range_add, ih, List.range_succ, List.flatMap_append]
    simp

/-- The paths in queue order have indices `0, 1, 2, ...`. -/
theorem paths_index : ∀ (ws done : List ℕ) (q : List (List ℕ)),
    (∀ p ∈ q, p.length = done.length) →
    q.map (alphaLoop 0 done) = (List.range done.prod).map some →
    (pathsFrom q ws).map (alphaLoop 0 (done ++ ws)) = (List.range (done ++ ws).prod).map some ∧
      ∀ p ∈ pathsFrom q ws, p.length = (done ++ ws).length := by
  intro ws
  induction ws with
  | nil => intro done q h1 h2; simpa [pathsFrom] using ⟨h2, h1⟩
  | cons w ws ih =>
    intro done q h1 h2
    have key : (q.flatMap fun p => (List.range w).map fun j => p ++ [j]).map (alphaLoop 0 (done ++ [w]))
        = (List.range (done ++ [w]).prod).map some := by
      rw [List.map_flatMap]
      have e : ∀ p ∈ q, ((List.range w).map fun j => p ++ [j]).map (alphaLoop 0 (done ++ [w]))
          = ((fun o : Option ℕ => o.elim [] fun r => (List.range w).map fun j => some (r * w + j))
              (alphaLoop 0 done p)) := by
        intro p hp
        have hs : alphaLoop 0 done p ∈ q.map (alphaLoop 0 done) := List.mem_map_of_mem hp
        rw [h2] at hs
        obtain ⟨r, _, hr⟩ := List.mem_map.1 hs
        rw [List.map_map]
        simp only [← hr, Option.elim]
        apply List.map_congr_left
        intro j hj
        simp only [Function.comp]
        rw [alphaLoop_append _ _ _ _ _ (h1 p hp), ← hr]
        simp [alphaLoop, List.mem_range.1 hj]
      rw [List.flatMap_congr e]
      have e2 : (q.flatMap fun a => (alphaLoop 0 done a).elim [] fun r =>
          (List.range w).map fun j => some (r * w + j))
          = (q.map (alphaLoop 0 done)).flatMap fun o => o.elim [] fun r =>
            (List.range w).map fun j => some (r * w + j) := by
        rw [List.flatMap_map]
      rw [e2, h2, List.flatMap_map]
      simp only [List.prod_append, List.prod_cons, List.prod_nil, mul_one, range_mul,
        List.map_flatMap, List.map_map, Option.elim]
      rfl
    have := ih (done ++ [w]) _ (by
      intro p hp
      simp only [List.mem_flatMap, List.mem_map] at hp
      obtain ⟨p', hp', j, _, rfl⟩ := hp
      simp [h1 p' hp']) key
    simpa [pathsFrom] using this

end NNL.Model
