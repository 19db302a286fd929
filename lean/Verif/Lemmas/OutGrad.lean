import Verif.Lemmas.Grad

/-! Helper lemmas about `output_gradient`. -/

set_option linter.unusedSectionVars false

namespace NNL.Model

open NNL NNL.Spec

variable {K : Type*} [Field K] [LinearOrder K] [IsStrictOrderedRing K]

theorem pathProd_snoc : ∀ (pat : List (List Bool)) (path : List ℕ) (j : ℕ),
    path.length < pat.length →
    (pathProd pat (path ++ [j]) : K) = pathProd pat path * ind (pat.getD path.length []) j := by
  intro pat
  induction pat with
  | nil => intro path j h; simp at h
  | cons p ps ih =>
    intro path j h
    cases path with
    | nil => cases ps <;> simp [pathProd]
    | cons i is =>
      simp only [List.cons_append, pathProd, List.length_cons, List.getD_cons_succ]
      rw [ih is j (by simpa using h), mul_assoc]

/-- Sum over the queue of flag products times the `j`-th entry of gradient times `v`. -/
def qsum (pat : List (List Bool)) (q : List (List ℕ × Mat K)) (j : ℕ) (v : Vec K) : K :=
  (q.map fun pg => pathProd pat pg.1 * dot (pg.2.getD j []) v).sum

theorem sum_flatMap {α : Type*} (l : List α) (f : α → List K) :
    (l.flatMap f).sum = (l.map fun a => (f a).sum).sum := by
  induction l with
  | nil => rfl
  | cons a l ih => simp [ih]

theorem dot_range (w u : Vec K) (n : ℕ) (h : w.length = n) :
    dot w u = ((List.range n).map fun j => w.getD j 0 * u.getD j 0).sum := by
  have : w = (List.range n).map fun j => w.getD j 0 := by
    apply vec_ext (by simp [h])
    intro i hi
    rw [getD_range_map _ _ _ (by omega)]
  rw [this, dot_shift]
  apply congrArg
  apply List.map_congr_left
  intro j hj
  rw [getD_range_map _ _ _ (List.mem_range.1 hj)]

theorem sum_map_swap {α : Type*} (l : List α) (m : List ℕ) (f : α → ℕ → K) :
    (l.map fun a => (m.map fun j => f a j).sum).sum = (m.map fun j => (l.map fun a => f a j).sum).sum := by
  induction l with
  | nil => simp
  | cons a l ih =>
    simp only [List.map_cons, List.sum_cons, ih]
    rw [← List.sum_map_add]

theorem sum_map_mul {α : Type*} (l : List α) (f : α → K) (c : K) :
    (l.map fun a => f a * c).sum = (l.map f).sum * c := by
  induction l with
  | nil => simp
  | cons a l ih => simp [ih, add_mul]

theorem zipWith_getD_gain (p : List Bool) (u : Vec K) (j : ℕ) (h : p.length = u.length) :
    (List.zipWith (fun b y => Act.gain (K := K) .relu b * y) p u).getD j 0 = ind p j * u.getD j 0 := by
  by_cases hj : j < u.length
  · have hj' : j < p.length := by omega
    simp [List.getD, hj, hj', ind, Act.gain, Act.slope]
  · have hj' : ¬ j < p.length := by omega
    simp [List.getD, hj, hj', ind]

theorem gradStep_sum (W : Mat K) (d w i : ℕ) (pat : List (List Bool)) (q : List (List ℕ × Mat K))
    (u v : Vec K) (hW : HasCols W w) (hi : i < W.length) (hd : d < pat.length)
    (hq : ∀ pg ∈ q, pg.1.length = d) (hu : u.length = w) (hp : (pat.getD d []).length = w)
    (h : ∀ j, j < w → qsum pat q j v = u.getD j 0) :
    qsum pat (gradStep W w q) i v
      = dot (W.getD i []) (List.zipWith (fun b y => Act.gain (K := K) .relu b * y) (pat.getD d []) u) := by
  have hw : (W.getD i []).length = w := by
    have e : W.getD i [] = W[i] := by simp [List.getD, hi]
    rw [e]; exact hW _ (List.getElem_mem hi)
  rw [dot_range _ _ w hw]
  unfold qsum gradStep
  rw [List.map_flatMap, sum_flatMap]
  have e1 : ∀ pg ∈ q, (((List.range w).map fun j =>
      (pg.1 ++ [j], W.map fun r => vsmul (r.getD j 0) (pg.2.getD j []))).map fun pg : List ℕ × Mat K =>
        pathProd pat pg.1 * dot (pg.2.getD i []) v).sum
      = ((List.range w).map fun j => pathProd pat pg.1 * dot (pg.2.getD j []) v *
          ((W.getD i []).getD j 0 * ind (pat.getD d []) j)).sum := by
    intro pg hpg
    rw [List.map_map]
    apply congrArg
    apply List.map_congr_left
    intro j _
    simp only [Function.comp]
    rw [pathProd_snoc _ _ _ (by rw [hq pg hpg]; exact hd), hq pg hpg]
    have : (W.map fun r => vsmul (r.getD j 0) (pg.2.getD j [])).getD i []
        = vsmul ((W.getD i []).getD j 0) (pg.2.getD j []) := by simp [List.getD, hi]
    rw [this, dot_vsmul_left]; ring
  rw [List.map_congr_left e1, sum_map_swap]
  apply congrArg
  apply List.map_congr_left
  intro j hj
  have hj := List.mem_range.1 hj
  rw [zipWith_getD_gain _ _ _ (by rw [hp, hu]), ← h j hj, sum_map_mul]
  unfold qsum
  ring

theorem gradStep_fst (W : Mat K) (w : ℕ) (q : List (List ℕ × Mat K)) :
    (gradStep W w q).map Prod.fst
      = (q.map Prod.fst).flatMap fun p => (List.range w).map fun j => p ++ [j] := by
  unfold gradStep
  rw [List.map_flatMap, List.flatMap_map]
  simp [Function.comp_def]

theorem gradStep_shape (W : Mat K) (w n : ℕ) (q : List (List ℕ × Mat K))
    (h : ∀ pg ∈ q, w ≤ pg.2.length ∧ HasCols pg.2 n) :
    ∀ pg ∈ gradStep W w q, pg.2.length = W.length ∧ HasCols pg.2 n := by
  intro pg hpg
  simp only [gradStep, List.mem_flatMap, List.mem_map, List.mem_range] at hpg
  obtain ⟨pg', h1, j, hj, rfl⟩ := hpg
  refine ⟨by simp, ?_⟩
  intro r hr
  obtain ⟨_, _, rfl⟩ := List.mem_map.1 hr
  have hj' : j < pg'.2.length := by have := (h pg' h1).1; omega
  have e : pg'.2.getD j [] = pg'.2[j] := by simp [List.getD, hj']
  rw [length_vsmul, e]
  exact (h pg' h1).2 _ (List.getElem_mem hj')

theorem gradQueue_spec (n : ℕ) {m : ℕ} (last : Lin K) (hlast : last.Ok) (hm : last.inF = m)
    (pat : List (List Bool)) : ∀ (hs : List (Lin K × Act K)) (k d : ℕ) (q q' : List (List ℕ × Mat K)),
    hs ≠ [] → HidOk k hs m → gradQueue q hs last = some q' →
    (∀ pg ∈ q, pg.1.length = d) →
    (∀ pg ∈ q, pg.2.length = (hs.map fun p => p.1.W.length).headD 0 ∧ HasCols pg.2 n) →
    PatFits hs (pat.drop d) →
    q'.map Prod.fst = pathsFrom (q.map Prod.fst) (hs.map fun p => p.1.W.length) ∧
    (∀ pg ∈ q', pg.2.length = last.W.length ∧ HasCols pg.2 n) ∧
    (∀ p ∈ hs, p.2 = .relu) ∧
    ∀ (u v : Vec K), u.length = (hs.map fun p => p.1.W.length).headD 0 →
      (∀ j, j < u.length → qsum pat q j v = u.getD j 0) →
      ∀ i, i < last.W.length → qsum pat q' i v
        = dot (last.W.getD i []) (dirHid hs.tail (pat.drop (d + 1))
            (List.zipWith (fun b y => Act.gain (K := K) .relu b * y) (pat.getD d []) u)) := by
  intro hs
  induction hs with
  | nil => intro k d q q' h; exact absurd rfl h
  | cons lp hs ih =>
    obtain ⟨l, a⟩ := lp
    intro k d q q' _ hok hg hq hq2 hfit
    obtain ⟨hin, hl, hrest⟩ := hok
    have hd : d < pat.length := by
      by_contra h
      rw [List.drop_eq_nil_of_le (by omega)] at hfit
      cases hfit
    have hdrop : pat.drop d = pat.getD d [] :: pat.drop (d + 1) := by
      rw [List.drop_eq_getElem_cons hd]
      simp [List.getD, hd]
    rw [hdrop] at hfit
    obtain ⟨hpl, hfit'⟩ := List.forall₂_cons.1 hfit
    simp only [List.map_cons, List.headD_cons] at hq2 ⊢
    cases hs with
    | nil =>
      have hkm : l.W.length = m := hrest
      cases a with
      | leaky s => simp [gradQueue] at hg
      | relu =>
        simp only [gradQueue, Option.some.injEq] at hg
        subst hg
        refine ⟨?_, ?_, ?_, ?_⟩
        · rw [gradStep_fst]; rfl
        · exact gradStep_shape _ _ n _ fun pg h => ⟨(hq2 pg h).1.ge, (hq2 pg h).2⟩
        · intro p hp; simp at hp; rw [hp]
        · intro u v hu hj i hi
          rw [gradStep_sum last.W d l.W.length i pat q u v (by rw [hkm, ← hm]; exact hlast.1) hi hd hq
            hu hpl (fun j h => hj j (by omega))]
          rfl
    | cons lp2 hs =>
      obtain ⟨l2, a2⟩ := lp2
      cases a with
      | leaky s => simp [gradQueue] at hg
      | relu =>
        simp only [gradQueue] at hg
        have hin2 : l2.inF = l.W.length := hrest.1
        have hl2 : l2.Ok := hrest.2.1
        obtain ⟨i1, i2, i3, i4⟩ := ih l.W.length (d + 1) _ q' (by simp) hrest hg (by
            intro pg hpg
            simp only [gradStep, List.mem_flatMap, List.mem_map] at hpg
            obtain ⟨pg', h1, j, _, rfl⟩ := hpg
            simp [hq pg' h1])
          (by
            intro pg hpg
            exact gradStep_shape _ _ n _ (fun pg h => ⟨(hq2 pg h).1.ge, (hq2 pg h).2⟩) pg hpg)
          hfit'
        refine ⟨?_, i2, ?_, ?_⟩
        · rw [i1, gradStep_fst]; rfl
        · intro p hp
          rcases List.mem_cons.1 hp with rfl | hp
          · rfl
          · exact i3 p hp
        · intro u v hu hj i hi
          have hstep := fun i hi => gradStep_sum l2.W d l.W.length i pat q u v
            (by rw [← hin2]; exact hl2.1) hi hd hq hu hpl (fun j h => hj j (by omega))
          rw [i4 (matVec l2.W (List.zipWith (fun b y => Act.gain (K := K) .relu b * y)
            (pat.getD d []) u)) v (by simp) (by
              intro j hj
              rw [length_matVec] at hj
              rw [hstep j hj, getD_matVec]) i hi]
          have ha2 : a2 = .relu := i3 (l2, a2) (by simp)
          have hd1 : d + 1 < pat.length := by
            by_contra h
            rw [List.drop_eq_nil_of_le (by omega)] at hfit'
            cases hfit'
          have hdrop1 : pat.drop (d + 1) = pat.getD (d + 1) [] :: pat.drop (d + 1 + 1) := by
            rw [List.drop_eq_getElem_cons hd1]
            simp [List.getD, hd1]
          rw [ha2, List.tail_cons, List.tail_cons]
          conv_rhs => rw [hdrop1]
          rfl

/-! ### Reading the queue -/

theorem gradFill_spec (ws : List ℕ) (na : ℕ) : ∀ (q : List (List ℕ × Mat K)) (M : Mat K) (s : ℕ)
    (e : GradEnc K), gradFill ws na q M = some e →
    q.map (fun pg => alphaIndex ws pg.1) = (List.range' s q.length).map some →
    s + q.length = M.length →
    e.M = M.take s ++ q.map (fun pg => pg.2.getD 0 []) ∧
    (∀ pg ∈ q, pg.2.length = 1) ∧
    e.rows = ((q.map Prod.fst).zipIdx s).flatMap fun t => alphaRows ws na t.2 t.1 := by
  intro q
  induction q with
  | nil =>
    intro M s e h _ hl
    cases h
    have hl : M.length ≤ s := by simpa using hl.ge
    simp [List.take_of_length_le hl]
  | cons pg q ih =>
    obtain ⟨path, g⟩ := pg
    intro M s e h hidx hl
    simp only [List.map_cons, List.length_cons, List.range'_succ, List.cons.injEq] at hidx
    simp only [List.length_cons] at hl
    unfold gradFill at h
    rw [hidx.1] at h
    cases g with
    | nil => simp at h
    | cons r g => cases g with
     | cons _ _ => simp at h
     | nil =>
      simp only at h
      obtain ⟨e2, he2, rfl⟩ := Option.map_eq_some_iff.1 h
      obtain ⟨j1, j2, j3⟩ := ih _ (s + 1) e2 he2 hidx.2 (by simp; omega)
      refine ⟨?_, ?_, ?_⟩
      · rw [j1]
        have : (M.set s r).take (s + 1) = M.take s ++ [r] := by
          rw [List.take_succ_eq_append_getElem (by simp; omega)]
          simp [List.take_set_of_le]
        rw [this]; simp
      · intro pg hpg
        rcases List.mem_cons.1 hpg with rfl | hpg
        · rfl
        · exact j2 pg hpg
      · simp only [List.map_cons, List.zipIdx_cons, List.flatMap_cons, j3]

theorem gradFill_isSome (ws : List ℕ) (na : ℕ) : ∀ (q : List (List ℕ × Mat K)) (M : Mat K),
    (∀ pg ∈ q, (alphaIndex ws pg.1).isSome) → ((gradFill ws na q M).isSome ↔
      ∀ pg ∈ q, pg.2.length = 1) := by
  intro q
  induction q with
  | nil => intro M _; simp [gradFill]
  | cons pg q ih =>
    obtain ⟨path, g⟩ := pg
    intro M h
    obtain ⟨idx, hidx⟩ := Option.isSome_iff_exists.1 (h (path, g) (by simp))
    simp only at hidx
    unfold gradFill
    rw [hidx]
    cases g with
    | nil => simp
    | cons r g => cases g with
      | cons _ _ => simp
      | nil =>
        simp only [Option.isSome_map]
        rw [ih _ fun pg hpg => h pg (by simp [hpg])]
        simp

/-! ### The rows of a path -/

theorem dot_set_at (r z : Vec K) (i : ℕ) (c : K) (h : i < r.length) :
    dot (r.set i c) z = dot r z + (c - r.getD i 0) * z.getD i 0 := by
  induction r generalizing i z with
  | nil => simp at h
  | cons a r ih => cases z with
    | nil => simp
    | cons b z => cases i with
      | zero => simp; ring
      | succ i =>
        simp only [List.set_cons_succ, dot_cons, List.getD_cons_succ]
        rw [ih _ _ (by simpa using h)]; ring

theorem dot_fold_set (z : Vec K) : ∀ (is : List ℕ) (r : Vec K), is.Nodup → (∀ i ∈ is, i < r.length) →
    (∀ i ∈ is, r.getD i 0 = 0) →
    dot (is.foldl (fun r i => r.set i 1) r) z = dot r z + (is.map fun i => z.getD i 0).sum := by
  intro is
  induction is with
  | nil => intro r _ _ _; simp
  | cons i is ih =>
    intro r hn hl h0
    obtain ⟨hni, hn⟩ := List.nodup_cons.1 hn
    rw [List.foldl_cons, ih _ hn (by intro j hj; simpa using hl j (by simp [hj])) (by
      intro j hj
      have hne : i ≠ j := fun h => hni (h ▸ hj)
      simp only [List.getD, List.getElem?_set_ne hne]
      exact h0 j (by simp [hj])), dot_set_at _ _ _ _ (hl i (by simp)), h0 i (by simp)]
    simp; ring

theorem foldl_map_set (ks : List ℕ) (f : ℕ → ℕ) (r : Vec K) :
    ks.foldl (fun r k => r.set (f k) 1) r = (ks.map f).foldl (fun r i => r.set i 1) r := by
  rw [List.foldl_map]

theorem take_succ_sum (ws : List ℕ) (k : ℕ) (h : k < ws.length) :
    (ws.take (k + 1)).sum = (ws.take k).sum + ws.getD k 0 := by
  rw [List.take_succ_eq_append_getElem h, List.sum_append]
  simp [List.getD, h]

theorem take_sum_mono (ws : List ℕ) {a b : ℕ} (h : a ≤ b) : (ws.take a).sum ≤ (ws.take b).sum := by
  obtain ⟨c, rfl⟩ := Nat.exists_eq_add_of_le h
  rw [List.take_add, List.sum_append]; omega

theorem unitIndex_lt {ws path : List ℕ} (h : PathOk ws path) {k : ℕ} (hk : k < ws.length) :
    unitIndex ws k (path.getD k 0) < ws.sum := by
  have h1 := h.2 k hk
  have h2 := take_succ_sum ws k hk
  have h3 := take_sum_mono ws (a := k + 1) (b := ws.length) (by omega)
  rw [List.take_length] at h3
  unfold unitIndex; omega

theorem unitIndex_nodup {ws path : List ℕ} (h : PathOk ws path) :
    ((List.range ws.length).map fun k => unitIndex ws k (path.getD k 0)).Nodup := by
  rw [List.nodup_map_iff_inj_on List.nodup_range]
  have key : ∀ a b, b < ws.length → a < b →
      unitIndex ws a (path.getD a 0) < unitIndex ws b (path.getD b 0) := by
    intro a b hb hab
    have h1 := h.2 a (by omega)
    have h2 := take_succ_sum ws a (by omega)
    have h3 := take_sum_mono ws (a := a + 1) (b := b) (by omega)
    unfold unitIndex; omega
  intro a ha b hb hab
  have ha := List.mem_range.1 ha
  have hb := List.mem_range.1 hb
  rcases lt_trichotomy a b with hlt | heq | hgt
  · have := key a b hb hlt; omega
  · exact heq
  · have := key b a ha hgt; omega

theorem alphaRows_holds {ws path : List ℕ} (h : PathOk ws path) (na t : ℕ) (ht : t < na)
    (al z : Vec K) :
    (∀ r ∈ alphaRows (K := K) ws na t path, r.val [] al z ≤ r.rhs) ↔
      (∀ k, k < ws.length → al.getD t 0 ≤ z.getD (unitIndex ws k (path.getD k 0)) 0) ∧
      ((List.range ws.length).map fun k => z.getD (unitIndex ws k (path.getD k 0)) 0).sum
        - ((ws.length : K) - 1) ≤ al.getD t 0 := by
  simp only [alphaRows, List.mem_append, or_imp, forall_and, List.forall_mem_map, List.mem_range,
    List.mem_singleton, forall_eq, LRow.val, dot_nil_left, zero_add, dot_set_zeros _ _ _ _ ht]
  refine and_congr ?_ ?_
  · refine forall_congr' fun k => imp_congr_right fun hk => ?_
    rw [dot_set_zeros _ _ _ _ (unitIndex_lt h hk)]
    constructor <;> intro h <;> linarith
  · rw [foldl_map_set, dot_fold_set z _ _ (unitIndex_nodup h) (by
      intro i hi
      simp only [List.mem_map, List.mem_range] at hi
      obtain ⟨k, hk, rfl⟩ := hi
      simpa using unitIndex_lt h hk) (by intro i _; simp)]
    simp only [dot_zeros_left, zero_add, List.map_map, Function.comp_def]
    constructor <;> intro h <;> linarith

theorem prod_linearised (bl : List K) (hbin : ∀ b ∈ bl, b = 0 ∨ b = 1) (hne : bl ≠ []) (al : K)
    (h0 : 0 ≤ al) :
    ((∀ b ∈ bl, al ≤ b) ∧ bl.sum - ((bl.length : K) - 1) ≤ al) ↔ al = bl.prod := by
  have hsum : bl.sum ≤ (bl.length : K) ∧ (bl.sum ≤ (bl.length : K) - 1 ∨ bl.prod = 1 ∧ ∀ b ∈ bl, b = 1) ∧
      ((∃ b ∈ bl, b = 0) → bl.sum ≤ (bl.length : K) - 1 ∧ bl.prod = 0) ∧
      ((∀ b ∈ bl, b = 1) → bl.sum = bl.length ∧ bl.prod = 1) := by
    clear h0 hne
    induction bl with
    | nil => simp
    | cons b bl ih =>
      obtain ⟨i1, i2, i3, i4⟩ := ih fun c hc => hbin c (by simp [hc])
      have hb := hbin b (by simp)
      simp only [List.sum_cons, List.length_cons, List.prod_cons, Nat.cast_add, Nat.cast_one,
        List.mem_cons, forall_eq_or_imp, exists_eq_or_imp]
      refine ⟨?_, ?_, ?_, ?_⟩
      · rcases hb with rfl | rfl <;> linarith
      · rcases hb with rfl | rfl
        · left; linarith
        · rcases i2 with i2 | ⟨i2, i5⟩
          · left; linarith
          · right; exact ⟨by rw [i2, mul_one], rfl, i5⟩
      · rintro (hb0 | hex)
        · rw [hb0]; exact ⟨by linarith, by rw [zero_mul]⟩
        · obtain ⟨j1, j2⟩ := i3 hex
          rw [j2]
          exact ⟨by rcases hb with rfl | rfl <;> linarith, by rw [mul_zero]⟩
      · rintro ⟨rfl, hall⟩
        obtain ⟨j1, j2⟩ := i4 hall
        exact ⟨by linarith, by rw [j2, one_mul]⟩
  obtain ⟨h1, -, h3, h4⟩ := hsum
  by_cases hz : ∃ b ∈ bl, b = 0
  · obtain ⟨k1, k2⟩ := h3 hz
    rw [k2]
    constructor
    · rintro ⟨a1, -⟩
      obtain ⟨b, hb, rfl⟩ := hz
      exact le_antisymm (a1 _ hb) h0
    · rintro rfl
      refine ⟨fun b hb => ?_, by linarith⟩
      rcases hbin b hb with h | h <;> rw [h]
      exact zero_le_one
  · have hall : ∀ b ∈ bl, b = 1 := fun b hb => (hbin b hb).resolve_left fun h => hz ⟨b, hb, h⟩
    obtain ⟨k1, k2⟩ := h4 hall
    rw [k2]
    constructor
    · rintro ⟨a1, a2⟩
      obtain ⟨b, hb⟩ := List.exists_mem_of_ne_nil bl hne
      have := a1 b hb
      rw [hall b hb] at this
      linarith
    · rintro rfl
      refine ⟨fun b hb => (hall b hb).ge, by linarith⟩

/-! ### Flags of a pattern and entries of the flat vector -/

theorem patVec_getD (pat : List (List Bool)) (k j : ℕ) (hk : k < pat.length)
    (hj : j < (pat.getD k []).length) :
    (patVec pat : Vec K).getD (((pat.map List.length).take k).sum + j) 0 = ind (pat.getD k []) j := by
  induction pat generalizing k with
  | nil => simp at hk
  | cons p ps ih =>
    cases k with
    | zero =>
      simp only [List.take_zero, List.sum_nil, zero_add, List.getD_cons_zero] at hj ⊢
      simp only [patVec, List.flatten_cons, List.map_append]
      rw [getD_append_lt _ _ _ _ (by simpa using hj)]
      simp [List.getD, hj, ind]
    | succ k =>
      simp only [List.map_cons, List.take_succ_cons, List.sum_cons, List.getD_cons_succ] at hj ⊢
      simp only [patVec, List.flatten_cons, List.map_append]
      have e := getD_append_add (p.map fun u => if u then (1 : K) else 0)
        (ps.flatten.map fun u => if u then (1 : K) else 0)
        (((ps.map List.length).take k).sum + j) 0
      rw [List.length_map] at e
      rw [add_assoc, e]
      exact ih k (by simpa using hk) hj

theorem pathProd_eq (pat : List (List Bool)) (path : List ℕ)
    (h : PathOk (pat.map List.length) path) :
    (pathProd pat path : K) = ((List.range pat.length).map fun k =>
      (patVec pat : Vec K).getD (unitIndex (pat.map List.length) k (path.getD k 0)) 0).prod := by
  have e : ((List.range pat.length).map fun k =>
      (patVec pat : Vec K).getD (unitIndex (pat.map List.length) k (path.getD k 0)) 0)
      = (List.range pat.length).map fun k => ind (pat.getD k []) (path.getD k 0) := by
    apply List.map_congr_left
    intro k hk
    have hk := List.mem_range.1 hk
    have := h.2 k (by simpa using hk)
    exact patVec_getD pat k _ hk (by simpa [List.getD, hk] using this)
  rw [e]
  have hl := h.1
  rw [List.length_map] at hl
  clear e h
  induction pat generalizing path with
  | nil => simp [pathProd]
  | cons p ps ih =>
    cases path with
    | nil => simp at hl
    | cons i is =>
      rw [pathProd, ih is (by simpa using hl), List.length_cons, List.range_succ_eq_map]
      simp [Function.comp_def]

theorem binToPattern_spec {ws : List ℕ} {z : Vec K} {pat : List (List Bool)}
    (h : binToPattern ws z = some pat) : pat.map List.length = ws ∧ patVec pat = z := by
  unfold binToPattern at h
  split at h
  · rename_i hc
    cases h
    obtain ⟨h1, h2⟩ := splitBin_spec ws 0 z (by omega)
    refine ⟨h1, ?_⟩
    unfold patVec
    rw [h2]
    have : slice z 0 ws.sum = z := by
      simp [slice, ← hc.2]
    rw [this, List.map_map]
    conv_rhs => rw [← List.map_id z]
    apply List.map_congr_left
    intro b hb
    rcases hc.1 b hb with rfl | rfl <;> simp
  · cases h

theorem paths_spec (ws : List ℕ) :
    (pathsFrom [[]] ws).map (alphaIndex ws) = (List.range ws.prod).map some ∧
      (∀ p ∈ pathsFrom [[]] ws, PathOk ws p) ∧ (∀ p, PathOk ws p → p ∈ pathsFrom [[]] ws) := by
  obtain ⟨h1, h2⟩ := paths_index ws [] [[]] (by simp) (by simp [alphaLoop])
  simp only [List.nil_append] at h1 h2
  have hmem : ∀ (ws : List ℕ) (q : List (List ℕ)) (p : List ℕ), p ∈ pathsFrom q ws ↔
      ∃ f ∈ q, ∃ t, List.Forall₂ (· < ·) t ws ∧ p = f ++ t := by
    intro ws
    induction ws with
    | nil => intro q p; simp [pathsFrom]
    | cons w ws ih =>
      intro q p
      rw [pathsFrom, ih]
      simp only [List.mem_flatMap, List.mem_map, List.mem_range]
      constructor
      · rintro ⟨f, ⟨g, hg, c, hc, rfl⟩, t, ht, rfl⟩
        exact ⟨g, hg, c :: t, List.Forall₂.cons hc ht, by simp⟩
      · rintro ⟨f, hf, t, ht, rfl⟩
        obtain ⟨b, t, hb, ht', rfl⟩ := List.forall₂_cons_right_iff.1 ht
        exact ⟨f ++ [b], ⟨f, hf, b, hb, rfl⟩, t, ht', by simp⟩
  have hok : ∀ p, PathOk ws p ↔ List.Forall₂ (· < ·) p ws := by
    intro p
    rw [List.forall₂_iff_get]
    constructor
    · rintro ⟨a, b⟩
      refine ⟨a, fun i h1 h2 => ?_⟩
      have := b i h2
      simpa [List.getD, h1, h2] using this
    · rintro ⟨a, b⟩
      refine ⟨a, fun k hk => ?_⟩
      have := b k (by omega) hk
      have hk' : k < p.length := by omega
      simpa [List.getD, hk, hk'] using this
  refine ⟨?_, fun p hp => ?_, fun p hp => ?_⟩
  · rw [← h1]
    apply List.map_congr_left
    intro p hp
    simp [alphaIndex, h2 p hp]
  · obtain ⟨f, hf, t, ht, rfl⟩ := (hmem _ _ _).1 hp
    simp only [List.mem_singleton] at hf
    subst hf
    exact (hok _).2 ht
  · exact (hmem _ _ _).2 ⟨[], by simp, p, (hok p).1 hp, rfl⟩

end NNL.Model
