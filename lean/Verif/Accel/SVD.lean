import Verif.Accel.IMVJ
import Mathlib.LinearAlgebra.Matrix.DotProduct
import Mathlib.Data.Matrix.ColumnRowPartitioned
import Mathlib.Data.Matrix.Diagonal

/-!
# Restart of the multi-vector quasi-Newton method with a singular value decomposition (model for C102)

Model of `/repo/src/acceleration/impl/SVDFactorization.hpp` and `SVDFactorization.cpp` and of the branch RS-SVD of `restartIMVJ` (IQNIMVJAcceleration.cpp:437-498). Numbers are real numbers, matrices
have all global rows (see C94 for products of distributed matrices). `κ` are the rows of all data (`_globalRowsA`), `ι` those of the primary data (`_globalRowsB`).

The singular value decomposition of the small matrix `K` is done by Eigen (`JacobiSVD`); it is a parameter here, see `Thin.IsSvd` for what is assumed of it.
-/

set_option autoImplicit false
set_option linter.unusedSectionVars false

namespace Verif.Accel.Svd

open Finset Matrix

variable {ι κ : Type} [Fintype ι] [Fintype κ]

/-- The loop over Gram-Schmidt passes in `computeQRdecomposition`, SVDFactorization.cpp:119-185, for a new column `v`; the argument counts the passes which are left of the four. The columns of `q`
are those of the matrix `Q` that have been accepted. The result are the coefficients and, if the column is accepted (`orthogonalized`), what is left of it and the norm of this. (`omega` is zero, so
`norm_coefficients` has no influence.) -/
noncomputable def passes (q : QR ι) : ℕ → (ι → ℝ) → (ℕ → ℝ) → ℝ → (ℕ → ℝ) × Option ((ι → ℝ) × ℝ)
  | 0, _, r, _ => (r, none)
  | n + 1, v, r, ρ₀ =>
    open Classical in
    let r := fun j => r j + ip (q.Q j) v
    let v := q.project q.cols v
    let ρ := l2 v
    if ρ ≤ dblMin then (r, none)
    else if ρ * √2 ≤ ρ₀ then passes q n v r ρ
    else (r, some (v, ρ))

/-- The body of the loop over the columns, SVDFactorization.cpp:104-229: column `c` is `v`. The additional filter (line 188) is never switched on. If the column is not accepted, the column and the row
which have been added are removed again (213-229), but the coefficients stay in column `c` of `R`. -/
noncomputable def addColumn (q : QR ι) (c : ℕ) (v : ι → ℝ) : QR ι :=
  let s := passes q 4 v (fun _ => 0) (l2 v)
  match s.2 with
  | some (w, ρ) =>
    { Q := fun j => if j = q.cols then fun x => w x / ρ else q.Q j
      R := fun i j => if j = c then (if i < q.cols then s.1 i else if i = q.cols then ρ else 0) else q.R i j
      cols := q.cols + 1 }
  | none => { q with R := fun i j => if j = c then (if i < q.cols then s.1 i else 0) else q.R i j }

/-- The loop over the columns of a matrix with `m` columns, SVDFactorization.cpp:102-234; column `c` is next. If there are as many columns as rows the function returns at once (112-115), and the
matrices are not shrunk. -/
noncomputable def columns (m : ℕ) : List (ι → ℝ) → ℕ → QR ι → QR ι
  | [], _, q => q
  | v :: l, c, q => if Fintype.card ι = c then { q with cols := m } else columns m l (c + 1) (addColumn q c v)

/-- The columns of a matrix. -/
def cols {m : ℕ} (A : Matrix ι (Fin m) ℝ) : List (ι → ℝ) := List.ofFn fun j x => A x j

/-- `computeQRdecomposition`, SVDFactorization.cpp:76-234 -/
noncomputable def decompose {m : ℕ} (A : Matrix ι (Fin m) ℝ) : QR ι := columns m (cols A) 0 QR.empty

/-- The factor `Q` as a matrix. -/
def left (q : QR ι) : Matrix ι (Fin q.cols) ℝ := Matrix.of fun x j => q.Q j x

/-- The factor `R` as a matrix with `m` columns. -/
def right (q : QR ι) (m : ℕ) : Matrix (Fin q.cols) (Fin m) ℝ := Matrix.of fun i j => q.R i j

/-- The members `_psi`, `_sigma`, `_phi`, `_cols`. -/
structure SVD (κ ι : Type) where
  cols : ℕ
  psi : Matrix κ (Fin cols) ℝ
  sigma : Fin cols → ℝ
  phi : Matrix ι (Fin cols) ℝ

/-- Before the first update, SVDFactorization.hpp:66-73 -/
def SVD.empty : SVD κ ι := ⟨0, 0, fun _ => 0, 0⟩

/-- The result of `JacobiSVD` with thin matrices. -/
structure Thin (m n : Type) where
  size : ℕ
  U : Matrix m (Fin size) ℝ
  S : Fin size → ℝ
  V : Matrix n (Fin size) ℝ

/-- What Eigen documents for `JacobiSVD`: `K = U S Vᵀ` with orthonormal columns, and singular values that are not negative and in decreasing order. -/
structure Thin.IsSvd {m n : Type} [Fintype m] [Fintype n] (K : Matrix m n ℝ) (d : Thin m n) : Prop where
  size : d.size = min (Fintype.card m) (Fintype.card n)
  product : K = d.U * diagonal d.S * d.Vᵀ
  left : d.Uᵀ * d.U = 1
  right : d.Vᵀ * d.V = 1
  nonneg : ∀ i, 0 ≤ d.S i
  sorted : ∀ i j, i ≤ j → d.S j ≤ d.S i

/-- `JacobiSVD` as a function. -/
abbrev Solver := ∀ c a b : ℕ, Matrix (Fin c ⊕ Fin a) (Fin c ⊕ Fin b) ℝ → Thin (Fin c ⊕ Fin a) (Fin c ⊕ Fin b)

/-- The number of singular values that are kept, SVDFactorization.hpp:153-162: all before the first which is smaller than `eps` times the first one. -/
noncomputable def keep (eps : ℝ) : List ℝ → ℕ
  | [] => 0
  | a :: l => open Classical in ((a :: l).takeWhile fun x => decide (¬ x < a * eps)).length

/-- The first `k` columns, SVDFactorization.hpp:165-167 -/
def SVD.resize (s : SVD κ ι) (k : ℕ) (h : k ≤ s.cols) : SVD κ ι :=
  ⟨k, s.psi.submatrix id (Fin.castLE h), fun j => s.sigma (Fin.castLE h j), s.phi.submatrix id (Fin.castLE h)⟩

theorem keep_le (eps : ℝ) (l : List ℝ) : keep eps l ≤ l.length := by
  cases l with
  | nil => exact le_refl _
  | cons a l => exact (List.takeWhile_prefix _).length_le

/-- Truncation, SVDFactorization.hpp:150-167 -/
noncomputable def SVD.truncate (eps : ℝ) (s : SVD κ ι) : SVD κ ι :=
  s.resize (keep eps (List.ofFn s.sigma)) (by simpa using keep_le eps (List.ofFn s.sigma))

/-- The small matrix `K`, SVDFactorization.hpp:104-125 -/
noncomputable def small (s : SVD κ ι) {m : ℕ} (A : Matrix κ (Fin m) ℝ) (B : Matrix ι (Fin m) ℝ) (p : QR κ) (q : QR ι) : Matrix (Fin s.cols ⊕ Fin p.cols) (Fin s.cols ⊕ Fin q.cols) ℝ :=
  fromBlocks (diagonal s.sigma) 0 0 0 + fromRows (s.psiᵀ * A) (right p m) * (fromRows (s.phiᵀ * B) (right q m))ᵀ

/-- `update` before the truncation, SVDFactorization.hpp:75-148 -/
noncomputable def SVD.grow (svd : Solver) (s : SVD κ ι) {m : ℕ} (A : Matrix κ (Fin m) ℝ) (B : Matrix ι (Fin m) ℝ) : SVD κ ι :=
  let p := decompose (A - s.psi * (s.psiᵀ * A))
  let q := decompose (B - s.phi * (s.phiᵀ * B))
  let d := svd _ _ _ (small s A B p q)
  ⟨d.size, fromCols s.psi (left p) * d.U, d.S, fromCols s.phi (left q) * d.V⟩

/-- `update`, SVDFactorization.hpp:51-173. Fails if there is no singular value at all (line 168 reads the first one). -/
noncomputable def SVD.update (svd : Solver) (eps : ℝ) (s : SVD κ ι) {m : ℕ} (A : Matrix κ (Fin m) ℝ) (B : Matrix ι (Fin m) ℝ) : Option (SVD κ ι) :=
  let t := (s.grow svd A B).truncate eps
  if t.cols = 0 then none else some t

/-- Weights of the preconditioner: those of the rows of all data and those of the rows of the primary data. (The code uses the same numbers for both; rows of all data which have no weight are not
scaled, `validRows` in Preconditioner.hpp, so their entry here is one.) -/
structure Weights (ι κ : Type) where
  all : κ → ℝ
  primary : ι → ℝ

/-- `_WtilChunk[i]` after the preconditioner has been applied, IQNIMVJAcceleration.cpp:442 -/
def scaledW (w : Weights ι κ) (f : Factor ι κ) : Matrix κ (Fin f.W.length) ℝ := Matrix.of fun k j => f.W[j] k * w.all k

/-- The transposed of `_pseudoInverseChunk[i]` after the inverse of the preconditioner has been applied, IQNIMVJAcceleration.cpp:443, 457 -/
noncomputable def scaledZ (w : Weights ι κ) (f : Factor ι κ) : Matrix ι (Fin f.W.length) ℝ := Matrix.of fun i j => f.Z j i * (1 / w.primary i)

/-- The factor that represents the decomposition, IQNIMVJAcceleration.cpp:467-490 -/
noncomputable def SVD.factor (w : Weights ι κ) (s : SVD κ ι) : Factor ι κ where
  W := List.ofFn fun j k => s.psi k j * (1 / w.all k)
  Z := fun j i => if h : j < s.cols then s.phi i ⟨j, h⟩ * s.sigma ⟨j, h⟩ * w.primary i else 0

/-- The members `_svdJ` (nothing before `_initialSVD` is set), and `_WtilChunk` with `_pseudoInverseChunk`. -/
structure Store (ι κ : Type) where
  svd : Option (SVD κ ι)
  chunk : List (Factor ι κ)

/-- The updates with the stored factors, IQNIMVJAcceleration.cpp:455-459 -/
noncomputable def updates (svd : Solver) (eps : ℝ) (w : Weights ι κ) : List (Factor ι κ) → SVD κ ι → Option (SVD κ ι)
  | [], s => some s
  | f :: l, s => (s.update svd eps (scaledW w f) (scaledZ w f)).bind (updates svd eps w l)

/-- RS-SVD in `restartIMVJ`, IQNIMVJAcceleration.cpp:437-491 -/
noncomputable def Store.restart (svd : Solver) (eps : ℝ) (w : Weights ι κ) (s : Store ι κ) : Option (Store ι κ) :=
  (match s.svd with
    | some d => updates svd eps w (s.chunk.drop 1) d
    | none => updates svd eps w s.chunk SVD.empty).map fun d => ⟨some d, [d.factor w]⟩

/-- The end of a window: the new factor is stored, and a restart is done if there are more than `size`, IQNIMVJAcceleration.cpp:675-700 -/
noncomputable def Store.window (svd : Solver) (eps : ℝ) (size : ℕ) (w : Weights ι κ) (f : Factor ι κ) (s : Store ι κ) : Option (Store ι κ) :=
  let s : Store ι κ := { s with chunk := s.chunk ++ [f] }
  if s.chunk.length ≥ size + 1 then s.restart svd eps w else some s

/-- `specializedInitializeVectorsAndPreconditioner`, IQNIMVJAcceleration.cpp:767-782 -/
def Store.init : Store ι κ := ⟨none, []⟩

end Verif.Accel.Svd
