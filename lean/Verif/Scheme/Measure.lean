import Mathlib.Analysis.Real.Sqrt
import Mathlib.Algebra.BigOperators.Ring.Finset
import Mathlib.Tactic.Linarith

/-!
# Convergence measures

`measureConvergence` (BaseCouplingScheme.cpp:690-749) and the measures of
`/repo/src/cplscheme/impl/*ConvergenceMeasure.hpp`. Properties C11 and C80 are in
`Verif.Scheme.MeasureProps`.
-/

set_option autoImplicit false

namespace Verif.Measure

/-- Flags of a `ConvergenceMeasureContext` together with the result of `isConvergence()`. -/
structure Ctx where
  suff : Bool
  strict : Bool
  holds : Bool
deriving Repr, DecidableEq

/-- Accumulators of the loop, BaseCouplingScheme.cpp:706-708. -/
structure Acc where
  allConverged : Bool := true
  oneSuffices : Bool := false
  oneStrict : Bool := false
deriving Repr, DecidableEq

/-- The loop, BaseCouplingScheme.cpp:711-736. `none` is the `PRECICE_CHECK` error 726.
`maxIter` is the raw integer, -2 stands for "infinite" (`INFINITE_MAX_ITERATIONS`). The assertion
`_maxIterations > 0` (724) is only active in debug builds and not modelled. -/
def loop (iters maxIter : ℤ) : List Ctx → Acc → Option Acc
  | [], a => some a
  | m :: ms, a =>
    if m.holds = false then
      let a := { a with allConverged := false }
      if m.strict then
        let a := { a with oneStrict := true }
        if iters < maxIter then loop iters maxIter ms a else none
      else loop iters maxIter ms a
    else if m.suff then loop iters maxIter ms { a with oneSuffices := true }
    else loop iters maxIter ms a

/-- `measureConvergence`, BaseCouplingScheme.cpp:690-749. -/
def measureConvergence (iters minIter maxIter : ℤ) (ms : List Ctx) : Option Bool :=
  if ms = [] then some false
  else
    (loop iters maxIter ms {}).map fun a =>
      decide (minIter ≤ iters) && (a.allConverged || (a.oneSuffices && !a.oneStrict))

/-- The value of `_hasConverged` after `doImplicitStep`, BaseCouplingScheme.cpp:846-849. -/
def hasConverged (iters minIter maxIter : ℤ) (ms : List Ctx) : Option Bool :=
  (measureConvergence iters minIter maxIter ms).map fun b => if iters = maxIter then true else b

/-! ## The individual measures -/

/-- `Eigen::VectorXd::norm`; for distributed vectors see property C64. -/
noncomputable def l2norm {n : ℕ} (v : Fin n → ℝ) : ℝ := Real.sqrt (∑ i, v i ^ 2)

/-- The four measure classes with their limits. -/
inductive Kind where
  | absolute (limit : ℝ)
  | absOrRel (limit rel : ℝ)
  | relative (rel : ℝ)
  | residual (rel : ℝ)

/-- Mutable state of a measure. `first` is `_normFirstResidual`, `none` before the first iteration
(`_isFirstIteration`); only used by the residual-relative measure. -/
structure M where
  kind : Kind
  conv : Bool := false
  first : Option ℝ := none

/-- `newMeasurementSeries`, e.g. ResidualRelativeConvergenceMeasure.hpp:41-46. -/
def newSeries (m : M) : M := { m with conv := false, first := none }

open Classical in
/-- `measure`: AbsoluteConvergenceMeasure.hpp:39-46, AbsoluteOrRelativeConvergenceMeasure.hpp:58-66,
RelativeConvergenceMeasure.hpp:54-69, ResidualRelativeConvergenceMeasure.hpp:48-59. -/
noncomputable def measure {n : ℕ} (m : M) (old new : Fin n → ℝ) : M :=
  let diff := l2norm (new - old)
  match m.kind with
  | .absolute lim => { m with conv := decide (diff ≤ lim) }
  | .absOrRel lim rel =>
    { m with conv := decide (diff ≤ l2norm new * rel) || decide (diff ≤ lim) }
  | .relative rel => { m with conv := decide (diff ≤ l2norm new * rel) }
  | .residual rel =>
    let f := m.first.getD diff
    { m with conv := decide (diff < f * rel), first := some f }

end Verif.Measure
