import Mathlib.Analysis.Real.Sqrt
import Mathlib.LinearAlgebra.Matrix.NonsingularInverse
import Mathlib.LinearAlgebra.Matrix.PosDef
import Mathlib.LinearAlgebra.Matrix.ToLin
import Mathlib.Data.Matrix.Block

/-!
Radial basis function mapping with dense solvers: /repo/src/mapping/RadialBasisFctSolver.hpp (assembly of
the system, consistent and conservative solve) and the serial parts of RadialBasisFctMapping.hpp.

Vectors and matrices are over ℝ. The decompositions of Eigen are described by what they compute in exact
arithmetic: `Eigen::LLT` succeeds iff the matrix is positive definite, `Eigen::ColPivHouseholderQR` reports
`isInvertible` iff the matrix is invertible, and both `solve` with the inverse; the rank-revealing solve of
a rectangular matrix is described at `basicInverse`. The condition number (a singular value decomposition)
and the choice of pivot columns are parameters with the properties in `Eigen.Valid`. Values with several
components are mapped component by component (the code handles the components as columns of one matrix). The
leave-one-out cross validation (`computeCrossValidation` is never switched on) is not modelled.
-/

set_option autoImplicit false

namespace Verif.Rbf
open Matrix

/-- `rawCoords()`: three coordinates, the third one is zero for meshes in two dimensions. -/
abbrev Point := Fin 3 → ℝ

/-- `Polynomial`, MappingConfigurationTypes.hpp -/
inductive Polynomial where
  | on
  | off
  | separate
deriving DecidableEq

/-- `computeSquaredDifference`, RadialBasisFctSolver.hpp:102-114: dead axes are multiplied by zero. -/
def squaredDifference (active : Fin 3 → Bool) (u v : Point) : ℝ :=
  ∑ d, ((u d - v d) * if active d then 1 else 0) * ((u d - v d) * if active d then 1 else 0)

/-- `basisFunction.evaluate(std::sqrt(squaredDifference))`, lines 196-197 and 232-233 -/
noncomputable def entry (φ : ℝ → ℝ) (active : Fin 3 → Bool) (u v : Point) : ℝ := φ √(squaredDifference active u v)

/-- The polynomial columns: the constant and one column for each active axis, `fillPolynomialEntries`
(lines 140-162) numbers them 0, 1, …; the model names a column by its axis. -/
abbrev Poly (active : Fin 3 → Bool) := Option {d : Fin 3 // active d = true}

/-- One row written by `fillPolynomialEntries`, lines 140-162 -/
def polyRow (active : Fin 3 → Bool) (u : Point) : Poly active → ℝ
  | none => 1
  | some d => u d

/-- The unknowns of the system: one for each input vertex and, for the integrated polynomial, one for each
polynomial column (`polyparams`, lines 168-174). -/
abbrev Dof (n : ℕ) (pol : Polynomial) (active : Fin 3 → Bool) := Fin n ⊕ {_k : Poly active // pol = .on}

variable {n m : ℕ} {pol : Polynomial} {active : Fin 3 → Bool}

/-- The entries which `buildMatrixCLU` computes: kernel values for `j ≥ i` (lines 187-199), polynomial
columns (202-204), all others zero (182-184). -/
noncomputable def upperCLU (φ : ℝ → ℝ) (X : Fin n → Point) : Matrix (Dof n pol active) (Dof n pol active) ℝ
  | .inl i, .inl j => if i ≤ j then entry φ active (X i) (X j) else 0
  | .inl i, .inr k => polyRow active (X i) k.1
  | .inr _, _ => 0

/-- Whether a position belongs to the upper triangle or the diagonal. -/
def isUpper : Dof n pol active → Dof n pol active → Bool
  | .inl i, .inl j => i ≤ j
  | .inl _, .inr _ => true
  | .inr _, .inl _ => false
  | .inr _, .inr _ => true

/-- `buildMatrixCLU`, lines 164-207: the lower triangle is copied from the transposed matrix (line 205). The
block of the polynomial columns is zero, its position in the triangle does not matter. -/
noncomputable def buildCLU (φ : ℝ → ℝ) (X : Fin n → Point) : Matrix (Dof n pol active) (Dof n pol active) ℝ := fun p q =>
  if isUpper p q then upperCLU φ X p q else upperCLU φ X q p

/-- `buildMatrixA`, lines 209-242 -/
noncomputable def buildA (φ : ℝ → ℝ) (X : Fin n → Point) (Y : Fin m → Point) : Matrix (Fin m) (Dof n pol active) ℝ
  | i, .inl j => entry φ active (Y i) (X j)
  | i, .inr k => polyRow active (Y i) k.1

/-- The matrices `_matrixQ` and `_matrixV` of the separated polynomial, lines 385-386 and 405-406 -/
def polyMatrix (axes : Fin 3 → Bool) (X : Fin n → Point) : Matrix (Fin n) (Poly axes) ℝ := fun i => polyRow axes (X i)

/-- The rank-revealing solve of `Eigen::ColPivHouseholderQR` for a rectangular matrix, as a matrix: the
least squares solution which uses the pivot columns only (the other unknowns are zero). Its transpose is
what `_qrMatrixQ.transpose().solve` applies. -/
noncomputable def basicInverse {P : Type} [Fintype P] [DecidableEq P] (Q : Matrix (Fin n) P ℝ) (S : Finset P) : Matrix P (Fin n) ℝ :=
  let B : Matrix (Fin n) S ℝ := fun i k => Q i k
  fun k i => if h : k ∈ S then ((Bᵀ * B)⁻¹ * Bᵀ) ⟨k, h⟩ i else 0

/-- What Eigen decides: whether the condition number of a polynomial matrix exceeds 1e5 (lines 388-396) and
which columns are pivots. -/
structure Eigen where
  ill : ∀ {n : ℕ} {axes : Fin 3 → Bool}, Matrix (Fin n) (Poly axes) ℝ → Bool
  pivots : ∀ {n : ℕ} {axes : Fin 3 → Bool}, Matrix (Fin n) (Poly axes) ℝ → Finset (Poly axes)

/-- Properties of exact singular values and pivoting.
`full`: a matrix with at least as many rows as columns and with dependent columns has smallest singular value
zero; the largest one is at least one because of the constant column, so the quotient with
`NUMERICAL_ZERO_DIFFERENCE` exceeds 1e5.
`single`: with one row or one column there is only one singular value and the quotient is one.
`allColumns`: independent columns are all pivots.
`first`: the first pivot is a column of largest norm. `independent`: pivot columns are independent. -/
structure Eigen.Valid (e : Eigen) : Prop where
  full : ∀ {n : ℕ} {axes : Fin 3 → Bool} (X : Fin n → Point), Fintype.card (Poly axes) ≤ n → e.ill (polyMatrix axes X) = false →
    LinearIndependent ℝ (polyMatrix axes X)ᵀ
  single : ∀ {n : ℕ} {axes : Fin 3 → Bool} (X : Fin n → Point), n = 1 ∨ (∀ d, axes d = false) → e.ill (polyMatrix axes X) = false
  allColumns : ∀ {n : ℕ} {axes : Fin 3 → Bool} (Q : Matrix (Fin n) (Poly axes) ℝ), LinearIndependent ℝ Qᵀ → e.pivots Q = Finset.univ
  independent : ∀ {n : ℕ} {axes : Fin 3 → Bool} (Q : Matrix (Fin n) (Poly axes) ℝ),
    LinearIndependent ℝ fun k : e.pivots Q => Qᵀ k
  first : ∀ {n : ℕ} {axes : Fin 3 → Bool} (Q : Matrix (Fin n) (Poly axes) ℝ), Q ≠ 0 →
    ∃ k ∈ e.pivots Q, ∀ l, ∑ i, Q i l * Q i l ≤ ∑ i, Q i k * Q i k

/-- The extent of the input vertices along an axis (lines 128-132). -/
noncomputable def extent (X : Fin n → Point) (d : Fin 3) : ℝ := (⨆ i, X i d) - ⨅ i, X i d

open Classical in
/-- `reduceActiveAxis`, lines 116-138: switch off the active axis with the smallest extent (the first of
several; dead axes are sorted to the end; without active axis nothing changes). -/
noncomputable def reduceActiveAxis (X : Fin n → Point) (axes : Fin 3 → Bool) : Fin 3 → Bool :=
  ((List.finRange 3).find? fun d => decide (axes d = true ∧ ∀ d', axes d' = true → extent X d ≤ extent X d')).elim axes
    fun d => Function.update axes d false

/-- The loop in lines 383-402: reduce axes until the condition number is acceptable. The model gives up
after `fuel` rounds. -/
noncomputable def chooseAxes (e : Eigen) (X : Fin n → Point) : ℕ → (Fin 3 → Bool) → Option (Fin 3 → Bool)
  | 0, _ => none
  | fuel + 1, axes => if e.ill (polyMatrix axes X) then chooseAxes e X fuel (reduceActiveAxis X axes) else some axes

/-- `RadialBasisFctSolver`, lines 24-98 -/
structure Solver (n m : ℕ) (pol : Polynomial) (active : Fin 3 → Bool) where
  /-- the matrix of `_decMatrixC` -/
  C : Matrix (Dof n pol active) (Dof n pol active) ℝ
  /-- `_matrixA` -/
  A : Matrix (Fin m) (Dof n pol active) ℝ
  /-- `_localActiveAxis` -/
  axes : Fin 3 → Bool
  /-- `_matrixQ` -/
  Q : Matrix (Fin n) (Poly axes) ℝ
  /-- `_matrixV` -/
  V : Matrix (Fin m) (Poly axes) ℝ
  /-- `_qrMatrixQ` -/
  G : Matrix (Poly axes) (Fin n) ℝ

open Classical in
/-- Whether the decomposition of the interpolation matrix is successful: lines 350-358. -/
noncomputable def decomposable (spd : Bool) (C : Matrix (Dof n pol active) (Dof n pol active) ℝ) : Bool :=
  if spd then decide C.PosDef else decide (IsUnit C.det)

/-- The constructor, lines 336-411: `none` is the error in lines 360-365 or, for a strictly positive definite
basis function with integrated polynomial, the error in RadialBasisFctMapping.hpp:89. -/
noncomputable def construct (e : Eigen) (spd : Bool) (φ : ℝ → ℝ) (pol : Polynomial) (active : Fin 3 → Bool) (X : Fin n → Point)
    (Y : Fin m → Point) : Option (Solver n m pol active) :=
  if spd = true ∧ pol = .on then none
  else if decomposable spd (buildCLU (pol := pol) (active := active) φ X) then
    (if pol = .separate then chooseAxes e X 4 active else some active).map fun axes =>
      { C := buildCLU φ X, A := buildA φ X Y, axes := axes, Q := polyMatrix axes X, V := polyMatrix axes Y,
        G := basicInverse (polyMatrix axes X) (e.pivots (polyMatrix axes X)) }
  else none

namespace Solver

/-- `solveConsistent`, lines 440-468 (one component) -/
noncomputable def solveConsistent (s : Solver n m pol active) (input : Dof n pol active → ℝ) : Fin m → ℝ :=
  if pol = .separate then
    let poly := s.G *ᵥ fun i => input (.inl i)
    let rest : Dof n pol active → ℝ := input - Sum.elim (s.Q *ᵥ poly) 0
    s.A *ᵥ (s.C⁻¹ *ᵥ rest) + s.V *ᵥ poly
  else s.A *ᵥ (s.C⁻¹ *ᵥ input)

/-- `solveConservative`, lines 413-438 (one component) -/
noncomputable def solveConservative (s : Solver n m pol active) (input : Fin m → ℝ) : Dof n pol active → ℝ :=
  let out := s.C⁻¹ *ᵥ (s.Aᵀ *ᵥ input)
  if pol = .separate then
    let epsilon := s.Vᵀ *ᵥ input - s.Qᵀ *ᵥ fun i => out (.inl i)
    out - Sum.elim (s.Gᵀ *ᵥ (-epsilon)) 0
  else out

/-- The serial `mapConsistent`, RadialBasisFctMapping.hpp:355-372: the entries of the polynomial remain
zero. -/
noncomputable def mapConsistent (s : Solver n m pol active) (f : Fin n → ℝ) : Fin m → ℝ := s.solveConsistent (Sum.elim f 0)

/-- The serial `mapConservative`, RadialBasisFctMapping.hpp:255-266 and 288: the polynomial entries are cut
off. -/
noncomputable def mapConservative (s : Solver n m pol active) (u : Fin m → ℝ) : Fin n → ℝ := fun i => s.solveConservative u (.inl i)

end Solver

end Verif.Rbf
