import Verif.Mapping.Pum

/-!
Partition of unity mapping on a device: /repo/src/mapping/BatchedRBFSolver.hpp and the kernels in
/repo/src/mapping/device/KokkosPUMKernels_Impl.hpp. `PartitionOfUnityMapping` uses them for every executor other than
`cpu` (PartitionOfUnityMapping.hpp:212-223).

Names are those of the model of the CPU variant (`Verif.Pum`). Arithmetic is exact over ℝ, values have one component.
Distances on the device use the coordinates of the mesh; the third coordinate is zero for meshes in two dimensions, so
they are the distances of the CPU variant. The order of the vertices of a cluster is not specified.
-/

set_option autoImplicit false

namespace Verif.Batched
open Matrix Rbf Pum

/-! ## Weights -/

variable {n m : ℕ}

/-- `res` in `compute_weights`, KokkosPUMKernels_Impl.hpp:129-139 -/
noncomputable def rawWeight (radius : ℝ) (center v : Point) : ℝ := max (compactC2 radius (distance center v)) tolerance

open Classical in
/-- `weightSum`, KokkosPUMKernels_Impl.hpp:114-142: the clusters which have the vertex add their weight. -/
noncomputable def weightSum (radius : ℝ) (cs : List Point) (Y : Fin m → Point) (j : Fin m) : ℝ :=
  ∑ c : Fin cs.length, if j ∈ within Y (cs.get c) (radius - tolerance) then rawWeight radius (cs.get c) (Y j) else 0

/-- `normalizedWeights`, KokkosPUMKernels_Impl.hpp:164-171 -/
noncomputable def weight (radius : ℝ) (cs : List Point) (Y : Fin m → Point) (c : Fin cs.length) (j : Fin m) : ℝ :=
  rawWeight radius (cs.get c) (Y j) / weightSum radius cs Y j

/-! ## Setup -/

open Classical in
/-- Whether the constructor ends without error message and every kernel has a system to work on,
BatchedRBFSolver.hpp:99-336: the polynomial is not integrated, the basis function is strictly positive definite,
neither mesh is empty, every output vertex has a cluster, and the radius is accepted by the weighting function
(BasisFunctions.hpp:414). Without centers line 198 divides by zero; for a cluster without input vertices the kernels
read outside of their matrices. -/
noncomputable def ready (spd : Bool) (pol : Polynomial) (radius : ℝ) (X : Fin n → Point) (Y : Fin m → Point) (cs : List Point) : Bool :=
  decide (pol ≠ .on ∧ spd = true ∧ n ≠ 0 ∧ m ≠ 0 ∧ cs ≠ [] ∧ tolerance < radius ∧ (∀ c ∈ cs, within X c radius ≠ []) ∧
    ∀ j, weightSum radius cs Y j ≠ 0)

/-! ## Linear systems -/

/-- The part of the matrix which is left after one step of the decomposition -/
noncomputable def schur {k : ℕ} (A : Matrix (Fin (k + 1)) (Fin (k + 1)) ℝ) : Matrix (Fin k) (Fin k) ℝ :=
  Matrix.of fun i j => A i.succ j.succ - A i.succ 0 / A 0 0 * A 0 j.succ

/-- LU decomposition without pivoting followed by the two triangular solves (`KokkosBatched::TeamLU`,
KokkosPUMKernels_Impl.hpp:449-476, and `Trsv`, 659-686). One step of the decomposition and what both substitutions do
with its row and column are written together. `none` is a division by zero, which the device does not report: values
are infinite or not a number from then on. -/
noncomputable def solveLU : {k : ℕ} → Matrix (Fin k) (Fin k) ℝ → (Fin k → ℝ) → Option (Fin k → ℝ)
  | 0, _, b => some b
  | _ + 1, A, b =>
    if A 0 0 = 0 then none
    else
      (solveLU (schur A) fun i => b i.succ - A i.succ 0 / A 0 0 * b 0).map fun y =>
        Fin.cons ((b 0 - ∑ j, A 0 j.succ * y j) / A 0 0) y

/-- `do_input_assembly`, KokkosPUMKernels_Impl.hpp:330-379 -/
noncomputable def kernelMatrix {k : ℕ} (φ : ℝ → ℝ) (active : Fin 3 → Bool) (X : Fin k → Point) : Matrix (Fin k) (Fin k) ℝ :=
  fun c r => entry φ active (X r) (X c)

/-! ## The polynomial -/

/-- What the pivoted QR decomposition decides, `do_batched_qr`, KokkosPUMKernels_Impl.hpp:177-269: the columns up to
the rank, in the order of the pivoting. -/
structure Device where
  pivots : ∀ {k : ℕ} {axes : Fin 3 → Bool}, Matrix (Fin k) (Poly axes) ℝ → List (Poly axes)

/-- Every column is farther from the span of the others than `1e-5` times the norm of every column. The squares of both
sides are compared. -/
def Spread {k : ℕ} {axes : Fin 3 → Bool} (Q : Matrix (Fin k) (Poly axes) ℝ) : Prop :=
  ∀ l l' (c : Poly axes → ℝ), c l = 1 → (1 / 10 ^ 5) ^ 2 * ∑ i, Q i l' ^ 2 < ∑ i, (Q *ᵥ c) i ^ 2

/-- Properties of exact pivoted QR decompositions with the threshold of lines 239-249, which compares the remainder of
every pivot column with the norm of the first one. -/
structure Device.Valid (D : Device) : Prop where
  nodup : ∀ {k : ℕ} {axes : Fin 3 → Bool} (Q : Matrix (Fin k) (Poly axes) ℝ), (D.pivots Q).Nodup
  spread : ∀ {k : ℕ} {axes : Fin 3 → Bool} (Q : Matrix (Fin k) (Poly axes) ℝ), Spread Q → ∀ l, l ∈ D.pivots Q
  independent : ∀ {k : ℕ} {axes : Fin 3 → Bool} (Q : Matrix (Fin k) (Poly axes) ℝ), LinearIndependent ℝ fun l : (D.pivots Q).toFinset => Qᵀ l
  first : ∀ {k : ℕ} {axes : Fin 3 → Bool} (Q : Matrix (Fin k) (Poly axes) ℝ), Q ≠ 0 → ∃ l ∈ D.pivots Q, ∀ l', ∑ i, Q i l' ^ 2 ≤ ∑ i, Q i l ^ 2

/-- The coefficients in steps 3c and 3d, KokkosPUMKernels_Impl.hpp:588-609: the least squares solution in the kept
columns, in the order of the pivoting. They are the first entries of the second column of `work`. -/
noncomputable def solution {k : ℕ} {active : Fin 3 → Bool} (D : Device) (X : Fin k → Point) (f : Fin k → ℝ) (r : ℕ) : ℝ :=
  ((D.pivots (polyMatrix active X))[r]?).elim 0 fun l => (basicInverse (polyMatrix active X) (D.pivots (polyMatrix active X)).toFinset *ᵥ f) l

/-- Step 3f, KokkosPUMKernels_Impl.hpp:618-625: what a thread read is put at the places of the columns, the others
stay zero. -/
noncomputable def place {active : Fin 3 → Bool} (pivots : List (Poly active)) (registers : ℕ → ℝ) (l : Poly active) : ℝ :=
  if l ∈ pivots then registers (pivots.idxOf l) else 0

/-! ## One team

Between the barrier in line 611 and the one in line 656 the threads of a team share the memory behind `&work(0, 1)`:
step 3e reads the coefficients from it and step 3g writes the coordinates of the vertices into it. There is no barrier
between the steps. -/

/-- An access to the shared memory -/
inductive Access where
  | read (r : ℕ)
  | write (a : ℕ) (v : ℝ)

/-- The coordinates of the mesh -/
def coordinates (active : Fin 3 → Bool) : List (Fin 3) := (List.finRange 3).filter fun d => active d

/-- What the body of the loop in lines 643-655 writes for one vertex: `localInMesh` has one row per vertex. -/
def rowAccesses {k : ℕ} (active : Fin 3 → Bool) (X : Fin k → Point) (i : Fin k) : List Access :=
  (coordinates active).mapIdx fun p d => .write (i * (coordinates active).length + p) (X i d)

/-- The threads of a team, how the loops over the input vertices and the output vertices are shared between them
(`TeamThreadRange`), and in which order they access the shared memory -/
structure Team (k l : ℕ) where
  threads : ℕ
  rowOf : Fin k → Fin threads
  outOf : Fin l → Fin threads
  schedule : List (Fin threads)

/-- The accesses of one thread in steps 3e (613-616) and 3g (639-655). -/
def program {k l : ℕ} (rank : ℕ) (active : Fin 3 → Bool) (X : Fin k → Point) (team : Team k l) (t : Fin team.threads) : List Access :=
  (List.range rank).map .read ++ ((List.finRange k).filter fun i => decide (team.rowOf i = t)).flatMap (rowAccesses active X)

/-- The shared memory, what every thread has still to do, and the coefficients it has read (`qrCoeffs`) -/
structure State (threads : ℕ) where
  memory : ℕ → ℝ
  todo : Fin threads → List Access
  registers : Fin threads → ℕ → ℝ

/-- A thread makes its next access. -/
def State.step {threads : ℕ} (s : State threads) (t : Fin threads) : State threads :=
  match s.todo t with
  | [] => s
  | .read r :: rest => { s with todo := Function.update s.todo t rest, registers := Function.update s.registers t (Function.update (s.registers t) r (s.memory r)) }
  | .write a v :: rest => { s with todo := Function.update s.todo t rest, memory := Function.update s.memory a v }

def State.run {threads : ℕ} (s : State threads) : List (Fin threads) → State threads
  | [] => s
  | t :: ts => (s.step t).run ts

/-- The state after the barrier in line 611 -/
noncomputable def start {k l : ℕ} {active : Fin 3 → Bool} (D : Device) (X : Fin k → Point) (f : Fin k → ℝ) (team : Team k l) : State team.threads where
  memory := solution (active := active) D X f
  todo := program (D.pivots (polyMatrix active X)).length active X team
  registers := fun _ _ => 0

/-- All threads have reached the barrier in line 656. -/
def Complete {k l : ℕ} (active : Fin 3 → Bool) (D : Device) (X : Fin k → Point) (f : Fin k → ℝ) (team : Team k l) : Prop :=
  ∀ t, ((start (active := active) D X f team).run team.schedule).todo t = []

/-- The coefficients which a thread uses from then on; without polynomial they are zero (line 562). -/
noncomputable def threadCoefficients {k l : ℕ} (pol : Polynomial) (active : Fin 3 → Bool) (D : Device) (X : Fin k → Point) (f : Fin k → ℝ) (team : Team k l)
    (t : Fin team.threads) : Poly active → ℝ :=
  if pol = .separate then place (D.pivots (polyMatrix active X)) (((start (active := active) D X f team).run team.schedule).registers t) else 0

/-- The kernel `do_batched_solve` for one cluster without the weights, KokkosPUMKernels_Impl.hpp:529-756. The
evaluation matrix has the same entries whether it is stored (lines 695-730) or not (732-767). -/
noncomputable def solveCluster {k l : ℕ} (D : Device) (φ : ℝ → ℝ) (pol : Polynomial) (active : Fin 3 → Bool) (X : Fin k → Point) (Y : Fin l → Point) (team : Team k l)
    (f : Fin k → ℝ) : Option (Fin l → ℝ) :=
  let p := threadCoefficients pol active D X f team
  (solveLU (kernelMatrix φ active X) fun i => f i - ∑ a, polyRow active (X i) a * p (team.rowOf i) a).map fun μ j =>
    (∑ i, entry φ active (Y j) (X i) * μ i) + ∑ a, polyRow active (Y j) a * p (team.outOf j) a

/-- One team for each cluster -/
abbrev Teams (radius : ℝ) (X : Fin n → Point) (Y : Fin m → Point) (cs : List Point) :=
  (c : Fin cs.length) → Team (within X (cs.get c) radius).length (within Y (cs.get c) (radius - tolerance)).length

/-- What a cluster computes for its output vertices -/
noncomputable def clusterValues (D : Device) (φ : ℝ → ℝ) (pol : Polynomial) (active : Fin 3 → Bool) (radius : ℝ) (X : Fin n → Point) (Y : Fin m → Point) (cs : List Point)
    (teams : Teams radius X Y cs) (f : Fin n → ℝ) (c : Fin cs.length) : Option (Fin (within Y (cs.get c) (radius - tolerance)).length → ℝ) :=
  solveCluster D φ pol active (fun i => X ((within X (cs.get c) radius).get i)) (fun i => Y ((within Y (cs.get c) (radius - tolerance)).get i)) (teams c)
    fun i => f ((within X (cs.get c) radius).get i)

open Classical in
/-- `solveConsistent`, BatchedRBFSolver.hpp:339-398: the teams of all clusters add their weighted values to values which
are zero before. `none` stands for values which are not numbers. -/
noncomputable def mapConsistent (D : Device) (φ : ℝ → ℝ) (pol : Polynomial) (active : Fin 3 → Bool) (radius : ℝ) (X : Fin n → Point) (Y : Fin m → Point) (cs : List Point)
    (teams : Teams radius X Y cs) (f : Fin n → ℝ) : Option (Fin m → ℝ) :=
  if ∀ c, (clusterValues D φ pol active radius X Y cs teams f c).isSome then
    some fun j => ∑ c : Fin cs.length, ∑ i, if (within Y (cs.get c) (radius - tolerance)).get i = j then
      ((clusterValues D φ pol active radius X Y cs teams f c).getD 0) i * weight radius cs Y c ((within Y (cs.get c) (radius - tolerance)).get i) else 0
  else none

/-- `mapConservative` with a device, PartitionOfUnityMapping.hpp:343-355: an assertion fails in a debug build; without
assertions nothing is added to the values, which are zero before. -/
def mapConservative (debug : Bool) (_ : Fin m → ℝ) : Option (Fin n → ℝ) := if debug then none else some 0

/-! ## Orderly teams -/

/-- No thread writes while another one still has to read. -/
def State.Orderly {threads : ℕ} (s : State threads) : List (Fin threads) → Prop
  | [] => True
  | t :: ts => (∀ a v rest, s.todo t = .write a v :: rest → ∀ t' r, Access.read r ∉ s.todo t') ∧ (s.step t).Orderly ts

def Team.Orderly {k l : ℕ} (active : Fin 3 → Bool) (D : Device) (X : Fin k → Point) (f : Fin k → ℝ) (team : Team k l) : Prop :=
  (start (active := active) D X f team).Orderly team.schedule

end Verif.Batched
