import Verif.Model.NumericalGradient
import Mathlib.Analysis.Calculus.Deriv.Slope
import Mathlib.Analysis.Calculus.Deriv.Comp
import Mathlib.Analysis.Calculus.Deriv.Add
import Mathlib.Analysis.Calculus.Deriv.Mul
import Mathlib.Tactic.FieldSimp
import Mathlib.Tactic.LinearCombination

/-!
# C97: numerical differentiation
-/

set_option linter.unusedSectionVars false

namespace NNL.Props

open NNL.Model Filter Topology

section

variable {K : Type} [Field K]

theorem setArgEntry_setEntry (args : List (List K)) (k i : ℕ) (v w : K) :
    setArgEntry (setArgEntry args k i v) k i w = setArgEntry args k i w := by
  simp only [setArgEntry]
  refine List.ext_getElem? fun j => ?_
  simp only [List.getElem?_modify]
  cases args[j]? with
  | none => rfl
  | some a =>
    by_cases h : k = j <;> simp [h]

theorem setArgEntry_self {args : List (List K)} {k i : ℕ} {a : List K} {v : K} (ha : args[k]? = some a) (hv : a[i]? = some v) :
    setArgEntry args k i v = args := by
  simp only [setArgEntry]
  refine List.ext_getElem? fun j => ?_
  simp only [List.getElem?_modify]
  by_cases h : k = j
  · subst h
    rw [ha]
    simp only [if_true, Option.map_eq_map, Option.map_some, Option.some.injEq]
    refine List.ext_getElem? fun l => ?_
    by_cases hl : i = l
    · subst hl
      rw [List.getElem?_set_self (List.getElem?_eq_some_iff.1 hv).1, hv]
    · rw [List.getElem?_set_ne hl]
  · simp [h]

/-- The difference quotient of the function in the entry `i` of the argument `k`. -/
def differenceQuotient (f : List (List K) → List K) (dx : K) (args : List (List K)) (k i : ℕ) (v : K) : List K :=
  List.zipWith (fun p m => (p - m) / (2 * dx)) (f (setArgEntry args k i (v + dx))) (f (setArgEntry args k i (v - dx)))

theorem numGradEntry_eq (f : List (List K) → List K) (dx : K) {k i : ℕ} {args : List (List K)} {a : List K} {v : K}
    (ha : args[k]? = some a) (hv : a[i]? = some v) :
    numGradEntry f dx k args i = some (args, differenceQuotient f dx args k i v) := by
  have e : v + dx - 2 * dx = v - dx := by ring
  simp only [numGradEntry, ha, hv, Option.bind_eq_bind, Option.bind_some, setArgEntry_setEntry, e, setArgEntry_self ha hv,
    differenceQuotient]

theorem numGradArg_eq (f : List (List K) → List K) (dx : K) {k : ℕ} {args : List (List K)} {a : List K}
    (ha : args[k]? = some a) : ∀ is : List ℕ, (∀ i ∈ is, i < a.length) →
    numGradArg f dx k is args = some (args, is.map fun i => differenceQuotient f dx args k i (a.getD i 0))
  | [], _ => rfl
  | i :: is, h => by
    have hv : a[i]? = some (a.getD i 0) := by
      have := h i (by simp)
      simp [List.getD_eq_getElem?_getD, this]
    simp only [numGradArg, numGradEntry_eq f dx ha hv, Option.bind_eq_bind, Option.bind_some,
      numGradArg_eq f dx ha is fun i hi => h i (by simp [hi]), List.map_cons]

theorem numGradLoop_eq (f : List (List K) → List K) (dx : K) {args : List (List K)} : ∀ ks : List ℕ, (∀ k ∈ ks, k < args.length) →
    numGradLoop f dx ks args = some (args, ks.map fun k => (List.range (args.getD k []).length).map fun i =>
      differenceQuotient f dx args k i ((args.getD k []).getD i 0))
  | [], _ => rfl
  | k :: ks, h => by
    have ha : args[k]? = some (args.getD k []) := by
      have := h k (by simp)
      simp [List.getD_eq_getElem?_getD, this]
    simp only [numGradLoop, ha, Option.bind_eq_bind, Option.bind_some,
      numGradArg_eq f dx ha _ (fun i hi => List.mem_range.1 hi), numGradLoop_eq f dx ks fun k hk => h k (by simp [hk]),
      List.map_cons]

/-- C97. `compute_numerical_gradient` returns one matrix for each argument with one column for each of its entries: the difference
quotient of the function at the given arguments with this entry alone moved by `dx` up and down. -/
theorem C97_columns (f : List (List K) → List K) (dx : K) (args : List (List K)) :
    ∃ G, numericalGradient f dx args = some G ∧ G.length = args.length ∧
      ∀ (k : ℕ) (a : List K), args[k]? = some a → ∃ g, G[k]? = some g ∧ g.length = a.length ∧
        ∀ (i : ℕ) (v : K), a[i]? = some v →
          g[i]? = some (List.zipWith (fun p m => (p - m) / (2 * dx)) (f (args.set k (a.set i (v + dx))))
            (f (args.set k (a.set i (v - dx))))) := by
  refine ⟨_, by rw [numericalGradient, numGradLoop_eq f dx _ fun k hk => List.mem_range.1 hk, Option.map_some], by simp, ?_⟩
  intro k a ha
  have hk := (List.getElem?_eq_some_iff.1 ha).1
  have hd : args.getD k [] = a := by simp [List.getD_eq_getElem?_getD, ha]
  refine ⟨_, by rw [List.getElem?_map, List.getElem?_range hk, Option.map_some], by simp [ha], ?_⟩
  intro i v hv
  have hi := (List.getElem?_eq_some_iff.1 hv).1
  have hset : ∀ w : K, setArgEntry args k i w = args.set k (a.set i w) := by
    intro w
    rw [setArgEntry, List.modify_eq_set_getElem?, ha]
    rfl
  have hav : a.getD i 0 = v := by simp [List.getD_eq_getElem?_getD, hv]
  rw [hd, List.getElem?_map, List.getElem?_range hi, Option.map_some, differenceQuotient, hset, hset, hav]

/-- C97. The difference quotient is the exact derivative of a function that is quadratic in the entry. -/
theorem C97_quadratic [CharZero K] (a b c v dx : K) (h : dx ≠ 0) :
    ((a + b * (v + dx) + c * (v + dx) ^ 2) - (a + b * (v - dx) + c * (v - dx) ^ 2)) / (2 * dx) = b + 2 * c * v := by
  field_simp
  ring

end

/-- C97. When `dx` becomes small the entry of the gradient converges to the partial derivative: if the component `j` of the function has
the derivative `d` in the entry `i` of the argument `k`, the limit of the entry of the returned matrix is `d`. -/
theorem C97_limit (f : List (List ℝ) → List ℝ) (args : List (List ℝ)) (k i j m : ℕ) (a : List ℝ) (v d : ℝ) (ha : args[k]? = some a)
    (hv : a[i]? = some v) (hm : ∀ x, (f x).length = m) (hj : j < m)
    (hd : HasDerivAt (fun t => (f (args.set k (a.set i t))).getD j 0) d v) :
    Tendsto (fun dx => ((((numericalGradient f dx args).getD []).getD k []).getD i []).getD j 0) (𝓝[≠] 0) (𝓝 d) := by
  have e : ∀ dx : ℝ, ((((numericalGradient f dx args).getD []).getD k []).getD i []).getD j 0 =
      ((f (args.set k (a.set i (v + dx)))).getD j 0 - (f (args.set k (a.set i (v - dx)))).getD j 0) / (2 * dx) := by
    intro dx
    obtain ⟨G, h1, -, h2⟩ := C97_columns f dx args
    obtain ⟨g, h3, -, h4⟩ := h2 k a ha
    have h5 := h4 i v hv
    simp only [h1, Option.getD_some, List.getD_eq_getElem?_getD, h3, h5]
    have l1 : j < (f (args.set k (a.set i (v + dx)))).length := by rw [hm]; exact hj
    have l2 : j < (f (args.set k (a.set i (v - dx)))).length := by rw [hm]; exact hj
    simp [l1, l2]
  simp only [e]
  set g : ℝ → ℝ := fun t => (f (args.set k (a.set i t))).getD j 0 with hg
  have h1 : HasDerivAt (fun t => g (v + t)) d 0 := by
    have h0 : HasDerivAt g d (v + 0) := by simpa using hd
    simpa [Function.comp_def] using h0.comp (0 : ℝ) ((hasDerivAt_id (0 : ℝ)).const_add v)
  have h2 : HasDerivAt (fun t => g (v - t)) (-d) 0 := by
    have h0 : HasDerivAt g d (v - 0) := by simpa using hd
    simpa [Function.comp_def] using h0.comp (0 : ℝ) ((hasDerivAt_id (0 : ℝ)).const_sub v)
  have h3 := hasDerivAt_iff_tendsto_slope_zero.1 ((h1.sub h2).div_const 2)
  have ed : (d - -d) / 2 = d := by ring
  rw [ed] at h3
  refine h3.congr fun t => ?_
  simp only [Pi.sub_apply, zero_add, add_zero, sub_zero, sub_self, zero_div, smul_eq_mul]
  rcases eq_or_ne t 0 with rfl | ht
  · simp
  · field_simp
    rfl

/-! ## The hypotheses are met: a function of two arguments -/

example : numericalGradient (K := ℚ) (fun x => match x with
    | [[a, b], [c]] => [a * b, c ^ 2 + a]
    | _ => []) (1 / 10) [[1, 2], [3]] = some [[[2, 1], [1, 0]], [[0, 6]]] := by
  decide +kernel

end NNL.Props
