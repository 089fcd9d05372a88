import Mathlib.Data.Rat.Defs
import Mathlib.Algebra.Order.Field.Rat
import Mathlib.Algebra.Order.Group.Unbundled.Abs
import Mathlib.Tactic.Linarith
import Mathlib.Tactic.NormNum

/-!
# Tolerance comparisons

Model of `/repo/src/math/differences.hpp`. Simplification: `double` is replaced by `ℚ`, there is
no rounding; the tolerance is kept.
-/

set_option autoImplicit false

namespace Verif

/-- `math::NUMERICAL_ZERO_DIFFERENCE`, src/math/differences.hpp:8. -/
def tol : ℚ := 1 / 10 ^ 14

/-- `math::equals`, src/math/differences.hpp:20-24 (scalar version). -/
def equals (a b : ℚ) : Prop := |a - b| ≤ tol

/-- `math::greater`, src/math/differences.hpp:70-74. -/
def greater (a b : ℚ) : Prop := a - b > tol

/-- `math::greaterEquals`, src/math/differences.hpp:76-80. -/
def greaterEquals (a b : ℚ) : Prop := a - b ≥ -tol

/-- `math::smaller`, src/math/differences.hpp:82-86. -/
def smaller (a b : ℚ) : Prop := a - b < -tol

/-- `math::smallerEquals`, src/math/differences.hpp:88-92. -/
def smallerEquals (a b : ℚ) : Prop := a - b ≤ tol

instance (a b : ℚ) : Decidable (equals a b) := inferInstanceAs (Decidable (_ ≤ _))
instance (a b : ℚ) : Decidable (greater a b) := inferInstanceAs (Decidable (_ > _))
instance (a b : ℚ) : Decidable (greaterEquals a b) := inferInstanceAs (Decidable (_ ≥ _))
instance (a b : ℚ) : Decidable (smaller a b) := inferInstanceAs (Decidable (_ < _))
instance (a b : ℚ) : Decidable (smallerEquals a b) := inferInstanceAs (Decidable (_ ≤ _))

theorem tol_pos : 0 < tol := by norm_num [tol]

theorem equals_iff {a b : ℚ} : equals a b ↔ -tol ≤ a - b ∧ a - b ≤ tol := abs_le

theorem equals_refl (a : ℚ) : equals a a := by
  rw [equals_iff]; have := tol_pos; constructor <;> linarith

theorem equals_comm {a b : ℚ} : equals a b ↔ equals b a := by
  simp only [equals_iff]; constructor <;> rintro ⟨h1, h2⟩ <;> constructor <;> linarith

theorem greater_iff_not_smallerEquals {a b : ℚ} : greater a b ↔ ¬ smallerEquals a b := by
  unfold greater smallerEquals; exact not_le.symm

theorem smaller_iff_not_greaterEquals {a b : ℚ} : smaller a b ↔ ¬ greaterEquals a b := by
  unfold smaller greaterEquals; exact not_le.symm

/-- The five comparisons partition the line: exactly one of smaller / equals / greater holds. -/
theorem trichotomy (a b : ℚ) :
    (smaller a b ∧ ¬ equals a b ∧ ¬ greater a b) ∨
    (¬ smaller a b ∧ equals a b ∧ ¬ greater a b) ∨
    (¬ smaller a b ∧ ¬ equals a b ∧ greater a b) := by
  have := tol_pos
  simp only [smaller, equals_iff, greater]
  by_cases h1 : a - b < -tol
  · left; refine ⟨h1, fun h => ?_, ?_⟩ <;> linarith [h1]
  · by_cases h2 : a - b > tol
    · right; right; refine ⟨h1, fun h => ?_, h2⟩; linarith [h.2]
    · right; left; push Not at h1 h2; exact ⟨not_lt.mpr h1, ⟨h1, h2⟩, not_lt.mpr h2⟩

end Verif
