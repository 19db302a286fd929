import Verif.Props.Lyapunov
import Verif.Props.Pattern
import Verif.Props.Cuts
import Verif.Props.Params
import Verif.Props.Feedback
import Verif.Props.ReluSystem

/-!
# Further theorems about C14, C17, C31, C48, C50 and C54

What the calls return exactly, where the earlier theorems leave room.
-/

set_option linter.unusedSectionVars false

namespace NNL.Props

open NNL NNL.Spec NNL.Model

variable {K : Type*} [Field K] [LinearOrder K] [IsStrictOrderedRing K]

/-! ### C31: `lyapunov_derivative` -/

/-- C31: `lyapunov_derivative` returns `V(x⁺) - V(x) + ε V(x)` for the possible next states, in their order. -/
theorem C31_derivatives (L : Lyap K) (R : Option (Tensor2 K)) (R' : Mat K) (hR : getR R L.dim = some R')
    (lam eps : K) (possible : List (Vec K)) (x xe : Vec K) :
    L.derivatives possible x xe lam eps R = some (possible.map fun y =>
      lyapV L.net R' lam xe y - lyapV L.net R' lam xe x + eps * lyapV L.net R' lam xe x) := by
  simp only [Lyap.derivatives, C31_values L R R' hR, C31_value L R R' hR, Option.bind_eq_bind, Option.bind_some,
    List.map_map]
  rfl

/-- Two possible next states. -/
example : exLyap.derivatives [[1, 0], [0, 1]] [1, 1] [0, 0] 1 (1 / 2) none = some ([[1, 0], [0, 1]].map fun y =>
    lyapV exLyap.net (eye 2) 1 [0, 0] y - lyapV exLyap.net (eye 2) 1 [0, 0] [1, 1]
      + 1 / 2 * lyapV exLyap.net (eye 2) 1 [0, 0] [1, 1]) :=
  C31_derivatives exLyap none _ rfl 1 (1 / 2) _ _ _

/-! ### C17: the flags -/

/-- C17: `ComputeReLUActivationPattern` marks exactly the units whose pre-activation is not negative. -/
theorem C17_flags : ∀ (hs : List (Lin K × Act K)) (x : Vec K),
    computePattern hs x = (preacts hs x).map fun ys => ys.map fun y => decide (0 ≤ y)
  | [], _ => rfl
  | (l, a) :: hs, x => by
    rw [computePattern, preacts, List.map_cons, C17_flags hs]

/-- A unit at zero counts as active. -/
example : computePattern [(⟨1, [[1], [-1], [1]], some [0, 0, -2]⟩, .relu)] [(1 : ℚ)] = [[true, false, false]] ∧
    computePattern [(⟨1, [[1], [-1], [1]], some [0, 0, -2]⟩, .relu)] [(0 : ℚ)] = [[true, true, false]] := by
  constructor <;> decide +kernel

/-! ### C14: the vertices -/

theorem mem_boxVertices : ∀ {lo up v : Vec K}, lo.length = up.length →
    (v ∈ boxVertices lo up ↔ v.length = lo.length ∧ ∀ i, i < lo.length → v.getD i 0 = lo.getD i 0 ∨ v.getD i 0 = up.getD i 0)
  | [], [], v, _ => by simp [boxVertices]
  | [], _ :: _, _, h => by simp at h
  | _ :: _, [], _, h => by simp at h
  | l :: lo, u :: up, v, h => by
    have ih := fun w => @mem_boxVertices lo up w (by simpa using h)
    simp only [boxVertices, List.mem_flatMap, List.mem_map, ih]
    constructor
    · rintro ⟨a, ha, w, ⟨h1, h2⟩, rfl⟩
      refine ⟨by simp [h1], fun i hi => ?_⟩
      cases i with
      | zero => simpa using ha
      | succ i => simpa using h2 i (by simpa using hi)
    · rintro ⟨h1, h2⟩
      cases v with
      | nil => simp at h1
      | cons a v =>
        refine ⟨a, by simpa using h2 0 (by simp), v, ⟨by simpa using h1, fun i hi => ?_⟩, rfl⟩
        simpa using h2 (i + 1) (by simpa using hi)

/-- C14: the vertices at which cuts are separated are exactly the corners of the box at which the input of the unit
is within its bounds. -/
theorem C14_vertices {lo up w : Vec K} {b rl ru : K} {vs : List (Vec K)} (hle : ∀ i, i < lo.length → lo.getD i 0 ≤ up.getD i 0)
    (h : linearInputVertices lo up w b rl ru = some vs) (v : Vec K) :
    v ∈ vs ↔ (v.length = lo.length ∧ ∀ i, i < lo.length → v.getD i 0 = lo.getD i 0 ∨ v.getD i 0 = up.getD i 0) ∧
      rl ≤ dot w v + b ∧ dot w v + b ≤ ru := by
  unfold linearInputVertices at h
  split at h
  · rename_i hl
    split at h
    · rename_i hr
      obtain rfl := Option.some.inj h
      rw [mem_boxVertices hl.1]
      refine ⟨fun hv => ⟨hv, ?_⟩, fun hv => hv.1⟩
      have hb : InBox lo up v := by
        refine ⟨hv.1, hv.1.trans hl.1, fun i hi => ?_⟩
        have hi' : i < lo.length := by rw [← hv.1]; exact hi
        rcases hv.2 i hi' with e | e <;> rw [e]
        · exact ⟨le_rfl, hle i hi'⟩
        · exact ⟨hle i hi', le_rfl⟩
      rw [hr.1, hr.2]
      exact row_sound w lo up v b hb
    · split at h
      · obtain rfl := Option.some.inj h
        rw [List.mem_filter, mem_boxVertices hl.1, decide_eq_true_iff]
      · cases h
  · cases h

/-- C14: the call raises exactly if the lengths differ or a bound of the unit is outside the range over the box. -/
theorem C14_vertices_raises (lo up w : Vec K) (b rl ru : K) : linearInputVertices lo up w b rl ru = none ↔
    ¬ (lo.length = up.length ∧ lo.length = w.length ∧ rowLo w b lo up ≤ rl ∧ ru ≤ rowUp w b lo up) := by
  unfold linearInputVertices
  split
  · rename_i hl
    split
    · rename_i hr
      simp [hl.1, ← hl.2, hr.1, hr.2]
    · split
      · rename_i hr
        simp [hl.1, ← hl.2, hr.1, hr.2]
      · rename_i hr
        simp only [true_iff]
        rintro ⟨-, -, h1, h2⟩
        exact hr ⟨h1, h2⟩
  · rename_i hl
    simp only [true_iff]
    rintro ⟨h1, h2, -⟩
    exact hl ⟨h1, h2⟩

/-- `x + y` on the unit square with bounds `[0, 1]`: three of the four corners. -/
example : linearInputVertices [0, 0] [1, 1] [1, 1] (0 : ℚ) 0 1 = some [[0, 0], [0, 1], [1, 0]] := by decide +kernel

/-! ### C48: limits of the inputs -/

/-- C48: an input with one finite and one infinite limit is not supported. -/
theorem C48_one_sided_raises (u pre : ℕ) (lower upper : Ext K) (a b : K) (m : Mip K)
    (h : isInf lower ∧ ¬ isInf upper ∨ ¬ isInf lower ∧ isInf upper) : satTurn u pre lower upper a b m = none := by
  unfold satTurn
  rw [if_neg (by tauto)]
  rcases h with ⟨h, -⟩ | ⟨-, h⟩ <;> rcases h with rfl | rfl
  · rfl
  · rfl
  · cases lower.toFin <;> rfl
  · cases lower.toFin <;> rfl

/-- C48: hence neither is a list of limits with such an input. -/
theorem C48_one_sided_list_raises : ∀ (us pres : List ℕ) (ls hs : List (Ext K)) (as bs : Vec K) (m : Mip K) (i : ℕ),
    i < us.length → (isInf (ls.getD i ⊥) ∧ ¬ isInf (hs.getD i ⊥) ∨ ¬ isInf (ls.getD i ⊤) ∧ isInf (hs.getD i ⊤)) →
    satLoop .binary us pres ls hs as bs m = none
  | [], _, _, _, _, _, _, i, hi, _ => by simp at hi
  | u :: us, [], _, _, _, _, _, _, _, _ => rfl
  | u :: us, _ :: _, [], _, _, _, _, _, _, _ => rfl
  | u :: us, _ :: _, _ :: _, [], _, _, _, _, _, _ => rfl
  | u :: us, _ :: _, _ :: _, _ :: _, [], _, _, _, _, _ => rfl
  | u :: us, _ :: _, _ :: _, _ :: _, _ :: _, [], _, _, _, _ => rfl
  | u :: us, p :: pres, l :: ls, h :: hs, a :: as, b :: bs, m, i, hi, hc => by
    rw [satLoop]
    cases i with
    | zero => rw [C48_one_sided_raises u p l h a b m (by simpa using hc)]; rfl
    | succ i =>
      cases satTurn u p l h a b m with
      | none => rfl
      | some m' => exact C48_one_sided_list_raises us pres ls hs as bs m' i (by simpa using hi) (by simpa using hc)

example : satLoop .binary [2, 3] [0, 1] [Ext.fin (-1), Ext.fin 0] [Ext.fin 1, ⊤] [-2, -2] [2, 2] (Mip.empty : Mip ℚ) = none :=
  C48_one_sided_list_raises _ _ _ _ _ _ _ 1 (by simp) (Or.inr (by constructor <;> simp [isInf]))

/-! ### C50: `mixed_integer_constraints` with or without bounds of the input -/

/-- C50: `ReLUSystem.mixed_integer_constraints(u_lo, u_up)` describes `step_forward` on the box of the states times
the given box of the inputs; a bound which is not given is the one of the constructor. -/
theorem C50_mic {S : CtrlRelu K} {n k : ℕ} (h : CtrlRelu.Ok S n k) {aLo aUp : Option (Vec K)} {r : ReluMIC K}
    (hr : S.mic aLo aUp = some r) (hl : ∀ a, aLo = some a → a.length = k) (hu : ∀ a, aUp = some a → a.length = k)
    {x u y : Vec K} (hx : x.length = n) (hux : u.length = k) :
    (∃ s z, r.mic.Feas (x ++ u) s z ∧ r.mic.out (x ++ u) s z = y) ↔
      InBox S.xLo S.xUp x ∧
      (∀ i, i < k → (aLo.getD S.uLo).getD i 0 ≤ u.getD i 0 ∧ u.getD i 0 ≤ (aUp.getD S.uUp).getD i 0) ∧
      y = S.step x u := by
  unfold CtrlRelu.mic at hr
  rw [h.lo, h.ulo] at hr
  have l1 : (aLo.getD S.uLo).length = k := by
    cases aLo with
    | none => exact h.ulo
    | some a => exact hl a rfl
  have l2 : (aUp.getD S.uUp).length = k := by
    cases aUp with
    | none => exact h.uup
    | some a => exact hu a rfl
  rw [C12_exact hr h.net trivial (by simp [h.lo, l1]) (by simp [h.up, l2]) (by simp [hx, hux]),
    InBox_append (by rw [h.lo, hx]) (by rw [h.up, hx]) (by omega) (by omega), and_assoc]
  refine and_congr Iff.rfl (and_congr ?_ Iff.rfl)
  constructor
  · rintro ⟨-, -, h3⟩ i hi
    exact h3 i (by omega)
  · intro h3
    exact ⟨by omega, by omega, fun i hi => h3 i (by omega)⟩

/-- C50: in the other two classes, too, a bound which is not given is the one of the constructor. -/
theorem C50_default_bounds (S : CtrlRelu K) (T : SecondRelu K) (a : Option (Vec K)) :
    S.micEq none a = S.micEq (some S.uLo) a ∧ S.micEq a none = S.micEq a (some S.uUp) ∧
      T.mic none a = T.mic (some T.uLo) a ∧ T.mic a none = T.mic a (some T.uUp) := ⟨rfl, rfl, rfl, rfl⟩

/-- Without bounds, and with a lower bound only. -/
example : (∃ r, exCtrl.mic none none = some r ∧ ∃ s z, r.mic.Feas [1, -1] s z ∧ r.mic.out [1, -1] s z = exCtrl.step [1] [-1]) ∧
    ∃ r, exCtrl.mic (some [0]) none = some r ∧ ¬ ∃ s z, r.mic.Feas [1, -1] s z := by
  have acc : ∀ l : ℚ, l ≤ 1 → (outputConstraint exCtrl.net 2 [-1, l] [1, 1] .ia).isSome := by
    intro l hl
    refine (C12_accepts exCtrl.net 2 [-1, l] [1, 1] exCtrl_ok.net rfl rfl fun i hi => ?_).2 (by simp [exCtrl, exNet])
    interval_cases i
    · norm_num
    · simpa using hl
  obtain ⟨r, hr⟩ := Option.isSome_iff_exists.1 (acc (-1) (by norm_num))
  obtain ⟨r', hr'⟩ := Option.isSome_iff_exists.1 (acc 0 (by norm_num))
  refine ⟨⟨r, hr, (C50_mic exCtrl_ok (aLo := none) (aUp := none) hr (by simp) (by simp) (x := [1]) (u := [-1]) rfl
    rfl).2 ⟨?_, ?_, rfl⟩⟩,
    r', hr', ?_⟩
  · refine ⟨rfl, rfl, fun i hi => ?_⟩
    have : i < 1 := hi
    interval_cases i
    norm_num [exCtrl]
  · intro i hi
    interval_cases i
    norm_num [exCtrl]
  · rintro ⟨s, z, h⟩
    have := ((C50_mic exCtrl_ok (aLo := some [0]) (aUp := none) hr' (by simp) (by simp) (x := [1]) (u := [-1]) rfl
      rfl).1 ⟨s, z, h, rfl⟩).2.1 0 one_pos
    norm_num at this

/-! ### C54: `extract_relu_structure` -/

/-- The linear layers. -/
def linsOf (ls : List (Layer K)) : List (Lin K) := ls.filterMap fun | .lin l => some l | .act _ => none

/-- The slopes of the activations for negative inputs. -/
def slopesOf (ls : List (Layer K)) : List K := ls.filterMap fun | .lin _ => none | .act a => some a.slope

theorem so {α : Type*} (a : α) (o : Option α) : (some a <|> o) = some a := rfl

theorem structure_foldIff : ∀ (ls : List (Layer K)) (s s' : Structure K), ls.foldlM structureStep s = some s' ↔
    s'.widths = (if s.widths = [] then ((linsOf ls).map Lin.inF).take 1 else s.widths) ++ (linsOf ls).map (·.W.length) ∧
      s'.slope = (s.slope <|> (slopesOf ls).head?) ∧
      s'.bias = (s.bias <|> ((linsOf ls).map (·.bias.isSome)).head?) ∧
      (∀ a ∈ slopesOf ls, s'.slope = some a) ∧ ∀ l ∈ linsOf ls, s'.bias = some l.bias.isSome
  | [], s, s' => by
    obtain ⟨w, a, b⟩ := s
    obtain ⟨w', a', b'⟩ := s'
    simp only [List.foldlM_nil, Option.pure_def, Option.some.injEq, Structure.mk.injEq, linsOf, slopesOf,
      List.filterMap_nil, List.map_nil, List.take_nil, List.append_nil, List.head?_nil, List.not_mem_nil,
      false_implies, implies_true, and_true]
    constructor
    · rintro ⟨rfl, rfl, rfl⟩
      refine ⟨?_, by cases a <;> rfl, by cases b <;> rfl⟩
      split <;> simp_all
    · rintro ⟨h1, h2, h3⟩
      refine ⟨?_, by cases a <;> simp_all, by cases b <;> simp_all⟩
      split at h1 <;> simp_all
  | .act c :: ls, s, s' => by
    obtain ⟨w, a, b⟩ := s
    have key : structureStep ⟨w, a, b⟩ (.act c) =
        if a = none ∨ a = some c.slope then some ⟨w, some c.slope, b⟩ else none := by
      cases c with
      | relu =>
        cases a with
        | none => rfl
        | some v =>
          simp only [structureStep, Act.slope]
          by_cases hv : v = 0 <;> simp [hv]
      | leaky t =>
        cases a with
        | none => rfl
        | some v =>
          simp only [structureStep, Act.slope]
          by_cases hv : v = t <;> simp [hv]
    have e1 : linsOf (.act c :: ls) = linsOf ls := rfl
    have e2 : slopesOf (.act c :: ls) = c.slope :: slopesOf ls := rfl
    rw [List.foldlM_cons, key, e1, e2]
    split
    · rename_i h
      rw [Option.bind_eq_bind, Option.bind_some, structure_foldIff ls]
      have : (a <|> (c.slope :: slopesOf ls).head?) = some c.slope := by rcases h with rfl | rfl <;> rfl
      rw [this]
      simp only [List.forall_mem_cons, Option.orElse_eq_orElse, so]
      constructor
      · rintro ⟨h1, h2, h3, h4, h5⟩
        exact ⟨h1, h2, h3, ⟨h2, h4⟩, h5⟩
      · rintro ⟨h1, h2, h3, ⟨-, h4⟩, h5⟩
        exact ⟨h1, h2, h3, h4, h5⟩
    · rename_i h
      simp only [Option.bind_eq_bind, Option.bind_none, reduceCtorEq, false_iff]
      rintro ⟨-, h2, -, h4, -⟩
      rw [List.forall_mem_cons] at h4
      cases a with
      | none => exact h (Or.inl rfl)
      | some v => exact h (Or.inr (h2.symm.trans h4.1))
  | .lin l :: ls, s, s' => by
    obtain ⟨w, a, b⟩ := s
    have e1 : linsOf (.lin l :: ls) = l :: linsOf ls := rfl
    have e2 : slopesOf (.lin l :: ls) = slopesOf ls := rfl
    have key : structureStep ⟨w, a, b⟩ (.lin l) = if b = none ∨ b = some l.bias.isSome then
        some ⟨(if w = [] then [l.inF] else w) ++ [l.W.length], a, some l.bias.isSome⟩ else none := by
      simp only [structureStep, List.length_eq_zero_iff]
      by_cases hb : b = none ∨ b = some l.bias.isSome <;> by_cases hw : w = [] <;> simp [hb, hw]
    rw [List.foldlM_cons, key, e1, e2]
    split
    · rename_i h
      rw [Option.bind_eq_bind, Option.bind_some, structure_foldIff ls]
      have : (b <|> ((l :: linsOf ls).map (·.bias.isSome)).head?) = some l.bias.isSome := by
        rcases h with rfl | rfl <;> rfl
      rw [this]
      have e3 : ((if w = [] then [l.inF] else w) ++ [l.W.length] = []) = False := by simp
      simp only [e3, if_false, List.forall_mem_cons, List.map_cons, List.take_succ_cons, List.take_zero,
        List.append_assoc, List.singleton_append, so]
      constructor
      · rintro ⟨h1, h2, h3, h4, h5⟩
        exact ⟨h1, h2, h3, h4, h3, h5⟩
      · rintro ⟨h1, h2, h3, h4, -, h5⟩
        exact ⟨h1, h2, h3, h4, h5⟩
    · rename_i h
      simp only [Option.bind_eq_bind, Option.bind_none, reduceCtorEq, false_iff]
      rintro ⟨-, -, h3, -, h5⟩
      rw [List.forall_mem_cons] at h5
      cases b with
      | none => exact h (Or.inl rfl)
      | some v => exact h (Or.inr (h3.symm.trans h5.1))

/-- C54: `extract_relu_structure` accepts exactly the networks whose linear layers all have or all lack a bias and
whose activations all have the same slope. It returns the widths of the layers, this slope and this flag. -/
theorem C54_structure_exact (ls : List (Layer K)) (s : Structure K) : extractStructure ls = some s ↔
    s.widths = ((linsOf ls).map Lin.inF).take 1 ++ (linsOf ls).map (·.W.length) ∧
      s.slope = (slopesOf ls).head? ∧ s.bias = ((linsOf ls).map (·.bias.isSome)).head? ∧
      (∀ a ∈ slopesOf ls, s.slope = some a) ∧ ∀ l ∈ linsOf ls, s.bias = some l.bias.isSome := by
  rw [extractStructure, structure_foldIff]
  simp

/-- A network with two layers; mixed activations raise. -/
example : extractStructure [.lin ⟨2, [[1, 0], [0, 1], [1, 1]], none⟩, .act (.leaky (1 / 10)), .lin ⟨3, [[1, 1, (1 : ℚ)]], none⟩]
      = some ⟨[2, 3, 1], some (1 / 10), some false⟩ ∧
    extractStructure [.lin ⟨1, [[1]], none⟩, .act (.leaky (1 / 10)), .lin ⟨1, [[(1 : ℚ)]], none⟩, .act .relu] = none := by
  constructor <;> decide +kernel

end NNL.Props
