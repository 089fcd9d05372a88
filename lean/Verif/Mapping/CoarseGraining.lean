import Verif.Mapping.Clustering
import Verif.Mapping.Basis

/-!
The coarse graining mapping: /repo/src/mapping/CoarseGrainingMapping.cpp. Only writing just in time exists.
-/

set_option autoImplicit false

namespace Verif.Coarse
open Rbf Pum Verif.Basis

variable {n : ℕ}

/-- The constant of line 33 -/
noncomputable def piConst : ℝ := 3.1415926535897931

/-- `LucyKernelFunction::evaluate`, lines 27-57; `none` is `PRECICE_UNREACHABLE`. -/
noncomputable def evaluate (grainDim : ℕ) (c r : ℝ) : Option ℝ :=
  if c < r then some 0
  else
    let ratio := r / c
    match grainDim with
    | 1 => some (5 * (1 / (3 * c)) * ((1 + ratio) * powInt 3 (1 - ratio)))
    | 2 => some (5 * (1 / (piConst * powInt 2 c)) * ((1 + 3 * ratio) * powInt 3 (1 - ratio)))
    | 3 => some (105 * (1 / (16 * piConst * powInt 3 c)) * ((1 + 3 * ratio) * powInt 3 (1 - ratio)))
    | _ => none

/-- The dimension of the constructor, line 76 -/
def grainDim : ℕ := 3

/-- `_lucyFunction->evaluate` -/
noncomputable def kernel (c r : ℝ) : ℝ := (evaluate grainDim c r).getD 0

/-- The body of the outer loop of `mapConservativeAt`, lines 91-101, for one component of the data -/
noncomputable def writeOne (X : Fin n → Point) (c : ℝ) (target : Fin n → ℝ) (w : Point × ℝ) : Fin n → ℝ :=
  (within X w.1 c).foldl (fun t d => Function.update t d (t d + kernel c √(squaredDifference (fun _ => true) (X d) w.1) * w.2)) target

/-- `mapConservativeAt`, lines 87-102; the constructor rejects radii which are not positive (line 72). -/
noncomputable def write (X : Fin n → Point) (c : ℝ) (target : Fin n → ℝ) (ws : List (Point × ℝ)) : Fin n → ℝ := ws.foldl (writeOne X c) target

end Verif.Coarse
