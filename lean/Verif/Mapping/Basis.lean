import Mathlib.Analysis.SpecialFunctions.Log.Basic
import Mathlib.Analysis.SpecialFunctions.Sqrt
import Mathlib.Tactic.Linarith
import Mathlib.Tactic.NormNum

/-!
The radial basis functions of /repo/src/mapping/impl/BasisFunctions.hpp and their construction from the configuration.
Exact arithmetic over ℝ; `std::fma(a, b, c)` is `a * b + c`.
-/

set_option autoImplicit false

namespace Verif.Basis

/-- `math::NUMERICAL_ZERO_DIFFERENCE`, and `NUMERICAL_ZERO_DIFFERENCE_DEVICE` of BasisFunctions.hpp:21 -/
noncomputable def tiny : ℝ := 1e-14

/-- The loop of `pow_int`, math/math.hpp:31-36. `fuel` bounds the number of rounds; `exp` itself is enough. -/
def powLoop : ℕ → ℕ → ℝ → ℝ → ℝ
  | 0, _, x, y => x * y
  | fuel + 1, exp, x, y => if 1 < exp then powLoop fuel (exp / 2) (x * x) (if exp % 2 = 1 then y * x else y) else x * y

/-- `math::pow_int<exp>`, math/math.hpp:22-38 -/
def powInt (exp : ℕ) (base : ℝ) : ℝ := if exp = 0 then 1 else powLoop exp exp base 1

/-- `ThinPlateSplines`, BasisFunctions.hpp:95-99 -/
noncomputable def thinPlate (radius : ℝ) : ℝ := Real.log (max radius tiny) * powInt 2 radius

/-- `Multiquadrics`, BasisFunctions.hpp:120-135 -/
noncomputable def multiquadrics (c radius : ℝ) : ℝ := √(powInt 2 c + powInt 2 radius)

/-- `InverseMultiquadrics`, BasisFunctions.hpp:158-176. The comment above the class omits the square root. -/
noncomputable def inverseMultiquadrics (c radius : ℝ) : ℝ := 1 / √(powInt 2 c + powInt 2 radius)

/-- `VolumeSplines`, BasisFunctions.hpp:204-207 -/
noncomputable def volume (radius : ℝ) : ℝ := |radius|

/-- `Gaussian::cutoffThreshold`, BasisFunctions.hpp:281 -/
noncomputable def cutoff : ℝ := 1e-9

/-- The support radius of `Gaussian` without an explicit one, BasisFunctions.hpp:242-243 -/
noncomputable def gaussianRadius (shape : ℝ) : ℝ := √(-Real.log cutoff) / shape

/-- `Gaussian`, BasisFunctions.hpp:263-272. The configuration never passes a support radius to the constructor
(MappingConfiguration.cpp:147-149), so `deltaY` is zero. -/
noncomputable def gaussian (shape radius : ℝ) : ℝ := if gaussianRadius shape < radius then 0 else Real.exp (-powInt 2 (shape * radius)) - 0

/-- `CompactThinPlateSplinesC2`, BasisFunctions.hpp:328-335, as function of the inverse radius `inv` -/
noncomputable def thinPlateC2 (inv radius : ℝ) : ℝ :=
  let p := radius * inv
  if 1 ≤ p then 0 else 1 - 30 * powInt 2 p - 10 * powInt 3 p + 45 * powInt 4 p - 6 * powInt 5 p - powInt 3 p * 60 * Real.log (max p tiny)

/-- `CompactPolynomialC0`, BasisFunctions.hpp:380-387 -/
noncomputable def polynomialC0 (inv radius : ℝ) : ℝ :=
  let p := radius * inv
  if 1 ≤ p then 0 else powInt 2 (1 - p)

/-- `CompactPolynomialC2`, BasisFunctions.hpp:433-440 -/
noncomputable def polynomialC2 (inv radius : ℝ) : ℝ :=
  let p := radius * inv
  if 1 ≤ p then 0 else powInt 4 (1 - p) * (4 * p + 1)

/-- `CompactPolynomialC4`, BasisFunctions.hpp:486-493 -/
noncomputable def polynomialC4 (inv radius : ℝ) : ℝ :=
  let p := radius * inv
  if 1 ≤ p then 0 else powInt 6 (1 - p) * (35 * powInt 2 p + (18 * p + 3))

/-- `CompactPolynomialC6`, BasisFunctions.hpp:538-545 -/
noncomputable def polynomialC6 (inv radius : ℝ) : ℝ :=
  let p := radius * inv
  if 1 ≤ p then 0 else powInt 8 (1 - p) * (32 * powInt 3 p + 25 * powInt 2 p + (8 * p + 1))

/-- `CompactPolynomialC8`, BasisFunctions.hpp:590-597 -/
noncomputable def polynomialC8 (inv radius : ℝ) : ℝ :=
  let p := radius * inv
  if 1 ≤ p then 0 else powInt 10 (1 - p) * (1287 * powInt 4 p + 1350 * powInt 3 p + 630 * powInt 2 p + 150 * p + 15)

/-- `BasisFunction`, MappingConfiguration.hpp -/
inductive Kind where
  | c0 | c2 | c4 | c6 | c8 | thinPlateC2 | thinPlate | volume | multiquadrics | inverseMultiquadrics | gaussian
deriving DecidableEq

/-- A constructed basis function: `evaluate`, `getSupportRadius` (`none` for functions without compact support),
`isStrictlyPositiveDefinite` -/
structure Fn where
  eval : ℝ → ℝ
  support : Option ℝ
  definite : Bool

open Classical in
/-- The constructors of the functions with a support radius, e.g. BasisFunctions.hpp:360-373; `getSupportRadius` inverts the stored inverse.
`none` is the exception for radii which are not greater than zero. -/
noncomputable def compact (f : ℝ → ℝ → ℝ) (radius : ℝ) : Option Fn :=
  if tiny < radius - 0 then
    let inv := 1 / radius
    some ⟨f inv, some (1 / inv), true⟩
  else none

open Classical in
/-- `constructRBF`, MappingConfiguration.cpp:113-153 -/
noncomputable def constructRBF (kind : Kind) (support shape : ℝ) : Option Fn :=
  match kind with
  | .c0 => compact polynomialC0 support
  | .c2 => compact polynomialC2 support
  | .c4 => compact polynomialC4 support
  | .c6 => compact polynomialC6 support
  | .c8 => compact polynomialC8 support
  | .thinPlateC2 => compact thinPlateC2 support
  | .thinPlate => some ⟨thinPlate, none, false⟩
  | .volume => some ⟨volume, none, false⟩
  | .multiquadrics => some ⟨multiquadrics shape, none, false⟩
  | .inverseMultiquadrics => if tiny < shape - 0 then some ⟨inverseMultiquadrics shape, none, true⟩ else none
  | .gaussian => if tiny < shape - 0 then some ⟨gaussian shape, some (gaussianRadius shape), true⟩ else none

/-- The parameters of the tag: a support radius and a shape parameter, `none` if absent (NaN) -/
structure Params where
  support : Option ℝ
  shape : Option ℝ

/-- What becomes of a tag: an error message, a function, or a function which evaluates to NaN at zero -/
inductive Outcome where
  | rejected
  | undefined
  | ready (f : Fn)

open Classical in
/-- MappingConfiguration.cpp:507-526: the Gaussian takes exactly one of both parameters, and the shape parameter is
computed from a support radius. For a support radius of zero it is infinite, which passes the check in the constructor,
and `evaluate(0)` is the exponential of `inf * 0`. An absent parameter of the other functions is an error of the XML
parser or, if the function does not have it, unused (zero). -/
noncomputable def configure (kind : Kind) (p : Params) : Outcome :=
  let made := fun o : Option Fn => o.elim Outcome.rejected Outcome.ready
  if kind = .gaussian then
    match p.support, p.shape with
    | some r, none => if r = 0 then .undefined else made (constructRBF kind r (√(-Real.log cutoff) / r))
    | none, some s => made (constructRBF kind 0 s)
    | _, _ => .rejected
  else made (constructRBF kind (p.support.getD 0) (p.shape.getD 0))

end Verif.Basis
