import Verif.Mapping.RbfRenumber
import Mathlib.LinearAlgebra.Matrix.DotProduct

/-!
The iterative radial basis function mapping: /repo/src/mapping/PetRadialBasisFctMapping.hpp (`global-iterative`).

The ranks are `Fin (n + 1)`. The matrices and vectors of PETSc are distributed; the model describes them as a whole, with
rows in the order of PETSc (the rows of rank 0, then those of rank 1, …). Vectors and matrices are over ℝ. The linear solvers
are described by what they compute when they are exact: the solver for the system by the inverse of the matrix, and
`KSPLSQR` by the shortest of all least squares solutions (`lsqr`); tolerances and iterations, and the initial guess (which
does not change the solution) are not modelled, and neither are the warnings and errors about solvers that do not converge.
Values with several components are mapped component by component (lines 574 and 706), the model describes one of them.
-/

set_option autoImplicit false

namespace Verif.PetRbf
open Matrix Verif.Rbf

/-- A vertex of the mesh from which the consistent direction reads (`inMesh`): global index, position, owner flag. -/
structure Vertex where
  g : ℕ
  x : Point
  owner : Bool

/-- The meshes of one rank: `inMesh`, and `outMesh` as global indices and positions. -/
structure Part where
  ins : List Vertex
  outs : List (ℕ × Point)

/-- What the user configures: the basis function with its support radius (`none` without compact support, where the code
uses the largest number), the polynomial and the axes which are not dead. -/
structure Setting where
  φ : ℝ → ℝ
  support : Option ℝ
  pol : Polynomial
  active : Fin 3 → Bool

variable {n : ℕ}

/-- The concatenation of what the ranks hold, which is how PETSc numbers the rows. -/
def gather {α : Type} (l : Fin (n + 1) → List α) : List α := (List.finRange (n + 1)).flatMap l

/-- The owned vertices of a rank, each with its local number, lines 229-232 (`myIndizes`). -/
def ownedRows (v : List Vertex) : List (Vertex × ℕ) := v.zipIdx.filter (·.1.owner)

/-- The rows of the matrix C after those of the polynomial, with the rank they belong to. -/
def rows (P : Fin (n + 1) → Part) : List (Fin (n + 1) × Vertex × ℕ) := gather fun r => (ownedRows (P r).ins).map (r, ·)

/-- The rows of the matrix A, lines 401-402: the local vertices of `outMesh` in their order, with the rank and the local number. -/
def outRows (P : Fin (n + 1) → Part) : List (Fin (n + 1) × (ℕ × Point) × ℕ) := gather fun r => (P r).outs.zipIdx.map (r, ·)

variable (P : Fin (n + 1) → Part)

/-- `AOApplicationToPetsc` for a global index of a vertex (lines 341, 432, 872, 972): the row with this global index. PETSc
returns a negative column if there is none, which `MatSetValues` ignores. The offset `polyparams` is left out: the columns of
the polynomial have names of their own. -/
def column (g : ℕ) : Option (Fin (rows P).length) := (List.finRange (rows P).length).find? fun p => (rows P)[p].2.1.g == g

/-- `getVerticesInsideBox`, Index.cpp:225-238: vertices whose distance is smaller than the support radius. The distance is
that of all coordinates (those beyond the dimension of the mesh are zero). The check of the distance without dead axes in
lines 883 and 967 is implied: this distance is not greater. -/
def near (s : Option ℝ) (u v : Point) : Prop := ∀ R, s = some R → √(squaredDifference (fun _ => true) u v) < R

open Classical in
/-- The vertex for which rank `r` sets the entry at column `q` of a row for the position `u`: lines 867-890 and 957-977 with
334-343 and 424-435. The last one if there are several. -/
noncomputable def entryOf (s : Option ℝ) (r : Fin (n + 1)) (u : Point) (q : Fin (rows P).length) : Option Vertex :=
  (P r).ins.reverse.find? fun w => decide (near s u w.x) && decide (column P w.g = some q)

variable (S : Setting)

/-- The value at row `p` and column `q` in the upper triangle of C (entries below the diagonal are skipped, line 874). -/
noncomputable def upper (p q : Fin (rows P).length) : ℝ :=
  (entryOf P S.support (rows P)[p].1 (rows P)[p].2.1.x q).elim 0 fun w => entry S.φ S.active (rows P)[p].2.1.x w.x

/-- The matrix C, lines 300-349: a symmetric matrix of which PETSc stores the upper triangle. The rows of the polynomial come
first and are set in lines 319-321. -/
noncomputable def matrixC : Matrix (Dof (rows P).length S.pol S.active) (Dof (rows P).length S.pol S.active) ℝ
  | .inl p, .inl q => if p ≤ q then upper P S p q else upper P S q p
  | .inl p, .inr k => polyRow S.active (rows P)[p].2.1.x k.1
  | .inr k, .inl p => polyRow S.active (rows P)[p].2.1.x k.1
  | .inr _, .inr _ => 0

/-- The matrix A, lines 398-438 -/
noncomputable def matrixA : Matrix (Fin (outRows P).length) (Dof (rows P).length S.pol S.active) ℝ
  | i, .inl q => (entryOf P S.support (outRows P)[i].1 (outRows P)[i].2.1.2 q).elim 0 fun w => entry S.φ S.active (outRows P)[i].2.1.2 w.x
  | i, .inr k => polyRow S.active (outRows P)[i].2.1.2 k.1

/-- The matrix Q of the separated polynomial, lines 322-324: all axes which are not dead. -/
def matrixQ : Matrix (Fin (rows P).length) (Poly S.active) ℝ := polyMatrix S.active fun p => (rows P)[p].2.1.x

/-- The matrix V of the separated polynomial, lines 405-421 -/
def matrixV : Matrix (Fin (outRows P).length) (Poly S.active) ℝ := polyMatrix S.active fun i => (outRows P)[i].2.1.2

/-- A least squares solution of `Q a = b` without a component in the kernel of `Q`. -/
def Shortest {ι κ : Type} [Fintype ι] [Fintype κ] (Q : Matrix ι κ ℝ) (b : ι → ℝ) (a : κ → ℝ) : Prop :=
  Qᵀ *ᵥ (Q *ᵥ a) = Qᵀ *ᵥ b ∧ ∃ z, a = Qᵀ *ᵥ z

open Classical in
/-- `KSPSolve` and (with the transposed matrix) `KSPSolveTranspose` of an exact `KSPLSQR` that starts from zero. -/
noncomputable def lsqr {ι κ : Type} [Fintype ι] [Fintype κ] (Q : Matrix ι κ ℝ) (b : ι → ℝ) : κ → ℝ :=
  if h : ∃ a, Shortest Q b a then h.choose else 0

open Classical in
/-- `VecFilter`, lines 26-33: small values become zero. -/
noncomputable def filter (t v : ℝ) : ℝ := if |v| < t then 0 else v

/-- `oneInterpolant`, lines 470-491: the interpolant of the constant function one. -/
noncomputable def oneInterpolant (i : Fin (outRows P).length) : ℝ := filter 1e-6 ((matrixA P S *ᵥ ((matrixC P S)⁻¹ *ᵥ fun _ => 1)) i)

/-- `mapConsistent`, lines 587-675: from the vector `f` of the values at the owned vertices to the whole output vector. A
quotient with a denominator of zero is zero in `VecPointwiseDivide`. -/
noncomputable def solveConsistent (f : Fin (rows P).length → ℝ) (i : Fin (outRows P).length) : ℝ :=
  filter 1e-9 <|
    if S.pol = .separate then
      let a := lsqr (matrixQ P S) f
      (matrixA P S *ᵥ ((matrixC P S)⁻¹ *ᵥ Sum.elim (f - matrixQ P S *ᵥ a) 0)) i / oneInterpolant P S i + (matrixV P S *ᵥ a) i
    else (matrixA P S *ᵥ ((matrixC P S)⁻¹ *ᵥ Sum.elim f 0)) i

/-- `mapConservative`, lines 721-799: from the vector `u` of the loads to the vector of the owned vertices (the entries of
the polynomial are skipped in line 809). -/
noncomputable def solveConservative (u : Fin (outRows P).length → ℝ) (p : Fin (rows P).length) : ℝ :=
  filter 1e-9 <|
    if S.pol = .separate then
      let μ := (matrixC P S)⁻¹ *ᵥ ((matrixA P S)ᵀ *ᵥ u)
      μ (.inl p) - lsqr (matrixQ P S)ᵀ ((matrixQ P S)ᵀ *ᵥ (fun i => μ (.inl i)) - (matrixV P S)ᵀ *ᵥ u) p
    else ((matrixC P S)⁻¹ *ᵥ ((matrixA P S)ᵀ *ᵥ u)) (.inl p)

/-- The part of rank `r` of a vector (`VecGetArrayRead`), if the ranks hold `count` entries each. -/
def slice {α : Type} (count : Fin (n + 1) → ℕ) (v : List α) (r : Fin (n + 1)) : List α :=
  (v.drop (((List.finRange (n + 1)).take r).map count).sum).take (count r)

/-- `mapConsistent` on rank `r`: lines 577-587 (the values of the owned vertices; `vals r i` is the value at local vertex `i`)
and 677-686. -/
noncomputable def mapConsistent (vals : Fin (n + 1) → ℕ → ℝ) (r : Fin (n + 1)) : List ℝ :=
  slice (fun r => (P r).outs.length) (List.ofFn (solveConsistent P S fun p => vals (rows P)[p].1 (rows P)[p].2.2)) r

/-- The loads, lines 709-716: rank `r` writes the values of its vertices to the rows given by their global indices, as far as these are local. A row that is never written is zero. -/
noncomputable def loads (vals : Fin (n + 1) → ℕ → ℝ) (k : Fin (outRows P).length) : ℝ :=
  (((P (outRows P)[k].1).outs.zipIdx.reverse.find? fun y => y.1.1 == k.1).elim 0 fun y => vals (outRows P)[k].1 y.2)

/-- Lines 801-817: owned vertices take the entries of the vector one after the other, the others have to be zero before. -/
def spread : List Vertex → List ℝ → List ℝ
  | [], _ => []
  | v :: l, a => if v.owner then a.headD 0 :: spread l a.tail else 0 :: spread l a

/-- `mapConservative` on rank `r` -/
noncomputable def mapConservative (vals : Fin (n + 1) → ℕ → ℝ) (r : Fin (n + 1)) : List ℝ :=
  spread (P r).ins (slice (fun r => (ownedRows (P r).ins).length) (List.ofFn (solveConservative P S (loads P vals))) r)

end Verif.PetRbf
