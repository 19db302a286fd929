import Verif.Basic.Vec

/-!
# Leaving a box through one face
-/

namespace NNL.Spec

open NNL

variable {K : Type*} [Field K] [LinearOrder K]

/-- `w` is outside of the box `[lo, up]` (or on its boundary) in the coordinate `i` only, and within `[loL, upL]`. -/
def Beside (lo up loL upL w : Vec K) (i : ℕ) : Prop :=
  (up.getD i 0 ≤ w.getD i 0 ∧ w.getD i 0 ≤ upL.getD i 0 ∨ loL.getD i 0 ≤ w.getD i 0 ∧ w.getD i 0 ≤ lo.getD i 0) ∧
    ∀ j, j < lo.length → j ≠ i → lo.getD j 0 ≤ w.getD j 0 ∧ w.getD j 0 ≤ up.getD j 0

/-- The region next to the box that is reached through one of its faces. -/
def InShell (lo up loL upL w : Vec K) : Prop := w.length = lo.length ∧ ∃ i, i < lo.length ∧ Beside lo up loL upL w i

/-- `a` is below the level `rho` (`none`: `inf`). -/
def Below (rho : Option K) (a : K) : Prop := ∀ r, rho = some r → a < r

end NNL.Spec
