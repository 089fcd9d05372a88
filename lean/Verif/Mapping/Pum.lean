import Verif.Mapping.Rbf

/-!
Partition of unity mapping with radial basis functions: /repo/src/mapping/PartitionOfUnityMapping.hpp and
/repo/src/mapping/impl/SphericalVertexCluster.hpp, the variant on the CPU.

The names follow the consistent direction: `X` are the vertices on which the local interpolants are built (input
of a consistent, output of a conservative mapping), `Y` are the vertices where they are evaluated. The candidates
for the centers and the radius (`createClustering`) are arguments. Arithmetic is exact over ℝ, values have one
component (components are mapped independently of each other). `none` stands for an error message, a failed
assertion or an access outside of a container.
-/

set_option autoImplicit false

namespace Verif.Pum
open Matrix Rbf

/-- `math::NUMERICAL_ZERO_DIFFERENCE` -/
noncomputable def tolerance : ℝ := 1 / 10 ^ 14

/-- `bg::distance` of two vertices; also `std::sqrt(computeSquaredDifference(…))` with all axes -/
noncomputable def distance (u v : Point) : ℝ := √(squaredDifference (fun _ => true) u v)

open Classical in
/-- `Index::getVerticesInsideBox(vertex, radius)`, Index.cpp:225-238: the box of the tree query contains the ball,
so only the distance matters. The order of a tree query is not specified; the callers sort the result or only form
sums. -/
noncomputable def within {k : ℕ} (X : Fin k → Point) (center : Point) (radius : ℝ) : List (Fin k) :=
  (List.finRange k).filter fun i => decide (distance center (X i) < radius)

/-- `CompactPolynomialC2`, BasisFunctions.hpp:433-440 -/
noncomputable def compactC2 (radius r : ℝ) : ℝ :=
  let p := r * (1 / radius)
  if p ≥ 1 then 0 else (1 - p) ^ 4 * (4 * p + 1)

variable {n m : ℕ} {pol : Polynomial} {active : Fin 3 → Bool}

/-- `SphericalVertexCluster`, SphericalVertexCluster.hpp:94-135; the weights are kept in `Mapping`. -/
structure Cluster (n m : ℕ) (pol : Polynomial) (active : Fin 3 → Bool) where
  center : Point
  /-- `_inputIDs`, sorted -/
  ins : List (Fin n)
  /-- `_outputIDs`, sorted -/
  outs : List (Fin m)
  solver : Solver ins.length outs.length pol active

/-- The loop over the candidates, PartitionOfUnityMapping.hpp:236-249, with the constructor of the cluster,
SphericalVertexCluster.hpp:139-182: empty clusters are dropped, the constructor of the solver may fail. -/
noncomputable def makeClusters (e : Eigen) (spd : Bool) (φ : ℝ → ℝ) (pol : Polynomial) (active : Fin 3 → Bool) (radius : ℝ)
    (X : Fin n → Point) (Y : Fin m → Point) : List Point → Option (List (Cluster n m pol active))
  | [] => some []
  | c :: cs =>
    let ins := within X c radius
    let outs := within Y c (radius - tolerance)
    if ins.isEmpty then makeClusters e spd φ pol active radius X Y cs
    else
      (construct e spd φ pol active (fun i => X (ins.get i)) fun i => Y (outs.get i)).bind fun s =>
        (makeClusters e spd φ pol active radius X Y cs).map fun l => ⟨c, ins, outs, s⟩ :: l

/-- `computeNormalizedWeight`, PartitionOfUnityMapping.hpp:290-341: the clusters around a vertex and their
weights. -/
noncomputable def normalizedWeights {k : ℕ} (centers : Fin k → Point) (radius : ℝ) (v : Point) : Option (List (Fin k × ℝ)) :=
  let ids := within centers v radius
  if ids.isEmpty then none
  else
    let weights := ids.map fun c => compactC2 radius (distance (centers c) v)
    let r : List ℝ × ℝ := if weights.sum ≤ 0 then (weights.map fun _ => 1 / (weights.length : ℝ), 1) else (weights, weights.sum)
    some (ids.zip (r.1.map (· / r.2)))

open Classical in
/-- `setNormalizedWeight`, SphericalVertexCluster.hpp:184-199: the vertex must belong to the cluster, the weight must
be positive. `W c j` is the weight of cluster `c` for vertex `j` (`_normalizedWeights`); `none` if it has not been set. -/
noncomputable def setWeight {k : ℕ} (outs : Fin k → List (Fin m)) (j : Fin m) (W : Fin k → Fin m → Option ℝ) (p : Fin k × ℝ) :
    Option (Fin k → Fin m → Option ℝ) :=
  if j ∈ outs p.1 ∧ 0 < p.2 then some (Function.update W p.1 (Function.update (W p.1) j (some p.2))) else none

/-- The body of the loop over the vertices, PartitionOfUnityMapping.hpp:269-278 -/
noncomputable def setWeights {k : ℕ} (centers : Fin k → Point) (outs : Fin k → List (Fin m)) (radius : ℝ) (Y : Fin m → Point)
    (W : Fin k → Fin m → Option ℝ) (j : Fin m) : Option (Fin k → Fin m → Option ℝ) :=
  (normalizedWeights centers radius (Y j)).bind fun l => l.foldlM (setWeight outs j) W

/-- `PartitionOfUnityMapping`, PartitionOfUnityMapping.hpp:103-143 -/
structure Mapping (n m : ℕ) (pol : Polynomial) (active : Fin 3 → Bool) where
  /-- `_clusterRadius` -/
  radius : ℝ
  clusters : List (Cluster n m pol active)
  weights : Fin clusters.length → Fin m → Option ℝ

/-- The centers of the clusters, `_centerMesh` -/
def centers (l : List (Cluster n m pol active)) (c : Fin l.length) : Point := (l.get c).center

open Classical in
/-- `computeMapping` after `createClustering`, PartitionOfUnityMapping.hpp:225-288. The integrated polynomial is not
allowed (line 165); the constructor of the weighting function needs a positive radius (BasisFunctions.hpp:414). -/
noncomputable def compute (e : Eigen) (spd : Bool) (φ : ℝ → ℝ) (pol : Polynomial) (active : Fin 3 → Bool) (radius : ℝ)
    (X : Fin n → Point) (Y : Fin m → Point) (candidates : List Point) : Option (Mapping n m pol active) :=
  if pol = .on ∨ (candidates ≠ [] ∧ ¬ tolerance < radius) then none
  else
    (makeClusters e spd φ pol active radius X Y candidates).bind fun l =>
      ((List.finRange m).foldlM (setWeights (centers l) (fun c => (l.get c).outs) radius Y) fun _ _ => none).map fun W => ⟨radius, l, W⟩

/-- All weights which the clusters read have been set. -/
def Mapping.ready (p : Mapping n m pol active) : Prop := ∀ c, ∀ j ∈ (p.clusters.get c).outs, (p.weights c j).isSome

/-- The weight of cluster `c` for a vertex -/
def Mapping.weight (p : Mapping n m pol active) (c : Fin p.clusters.length) (j : Fin m) : ℝ := (p.weights c j).getD 0

/-- What a cluster adds to the values, `SphericalVertexCluster::mapConsistent`, SphericalVertexCluster.hpp:296-335 -/
noncomputable def Mapping.addConsistent (p : Mapping n m pol active) (f : Fin n → ℝ) (c : Fin p.clusters.length) (j : Fin m) : ℝ :=
  let k := p.clusters.get c
  let result := k.solver.mapConsistent fun i => f (k.ins.get i)
  ∑ i, if k.outs.get i = j then result i * p.weight c (k.outs.get i) else 0

open Classical in
/-- `mapConsistent`, PartitionOfUnityMapping.hpp:362-380: the clusters accumulate into values which are zero before. -/
noncomputable def Mapping.mapConsistent (p : Mapping n m pol active) (f : Fin n → ℝ) : Option (Fin m → ℝ) :=
  if p.ready then some fun j => ∑ c, p.addConsistent f c j else none

/-- What a cluster adds to the loads, `SphericalVertexCluster::mapConservative`, SphericalVertexCluster.hpp:201-240 -/
noncomputable def Mapping.addConservative (p : Mapping n m pol active) (u : Fin m → ℝ) (c : Fin p.clusters.length) (i : Fin n) : ℝ :=
  let k := p.clusters.get c
  let result := k.solver.mapConservative fun j => u (k.outs.get j) * p.weight c (k.outs.get j)
  ∑ l, if k.ins.get l = i then result l else 0

open Classical in
/-- `mapConservative`, PartitionOfUnityMapping.hpp:343-360 -/
noncomputable def Mapping.mapConservative (p : Mapping n m pol active) (u : Fin m → ℝ) : Option (Fin n → ℝ) :=
  if p.ready then some fun i => ∑ c, p.addConservative u c i else none

/-! ## Just-in-time mapping -/

/-- `RadialBasisFctSolver::computeCacheData`, RadialBasisFctSolver.hpp:470-482: the coefficients of the polynomial and
of the basis functions, from the values at the vertices of the cluster -/
noncomputable def cacheData {k l : ℕ} (s : Solver k l pol active) (f : Fin k → ℝ) : (Poly s.axes → ℝ) × (Dof k pol active → ℝ) :=
  if pol = .separate then
    let poly := s.G *ᵥ f
    (poly, s.C⁻¹ *ᵥ Sum.elim (f - s.Q *ᵥ poly) 0)
  else (0, s.C⁻¹ *ᵥ Sum.elim f 0)

/-- `RadialBasisFctSolver::interpolateAt`, RadialBasisFctSolver.hpp:484-522: all axes are used for the distance -/
noncomputable def interpolateAt {k l : ℕ} (φ : ℝ → ℝ) (s : Solver k l pol active) (X : Fin k → Point) (v : Point)
    (d : (Poly s.axes → ℝ) × (Dof k pol active → ℝ)) : ℝ :=
  (∑ j, entry φ (fun _ => true) v (X j) * d.2 (.inl j)) + if pol = .separate then ∑ a, polyRow s.axes v a * d.1 a else 0

/-- The sum which `mapConsistentAt` computes for one location, PartitionOfUnityMapping.hpp:451-476, after
`updateMappingDataCache` (438-449) with the values `f` -/
noncomputable def Mapping.readAt (φ : ℝ → ℝ) (X : Fin n → Point) (p : Mapping n m pol active) (f : Fin n → ℝ) (v : Point) : Option ℝ :=
  (normalizedWeights (centers p.clusters) p.radius v).map fun l =>
    (l.map fun q =>
      let k := p.clusters.get q.1
      q.2 * interpolateAt φ k.solver (fun i => X (k.ins.get i)) v (cacheData k.solver fun i => f (k.ins.get i))).sum

/-- The cache of a cluster for conservative mappings: `polynomialContributions` and `p` of
MappingDataCache.hpp:62-65 -/
abbrev WriteCache (p : Mapping n m pol active) :=
  (c : Fin p.clusters.length) → (Poly (p.clusters.get c).solver.axes → ℝ) × (Fin (p.clusters.get c).ins.length → ℝ)

/-- `addWriteDataToCache`, RadialBasisFctSolver.hpp:524-562 -/
noncomputable def addWrite (φ : ℝ → ℝ) (X : Fin n → Point) (p : Mapping n m pol active) (v : Point) (d : WriteCache p) (c : Fin p.clusters.length) (load : ℝ) : WriteCache p :=
  let k := p.clusters.get c
  Function.update d c
    (if pol = .separate then fun a => (d c).1 a + polyRow k.solver.axes v a * load else (d c).1,
      fun j => (d c).2 j + entry φ (fun _ => true) v (X (k.ins.get j)) * load)

/-- `mapConservativeAt` for one location, PartitionOfUnityMapping.hpp:382-408 -/
noncomputable def Mapping.writeAt (φ : ℝ → ℝ) (X : Fin n → Point) (p : Mapping n m pol active) (d : WriteCache p) (v : Point) (load : ℝ) : Option (WriteCache p) :=
  (normalizedWeights (centers p.clusters) p.radius v).map fun l =>
    l.foldl (fun d q => addWrite φ X p v d q.1 (q.2 * load)) d

/-- `mapConservativeAt` for several locations -/
noncomputable def Mapping.writeAll (φ : ℝ → ℝ) (X : Fin n → Point) (p : Mapping n m pol active) (d : WriteCache p) (w : List (Point × ℝ)) : Option (WriteCache p) :=
  w.foldlM (fun d q => p.writeAt φ X d q.1 q.2) d

/-- `evaluateConservativeCache`, RadialBasisFctSolver.hpp:564-575 -/
noncomputable def evaluateCache {k l : ℕ} (s : Solver k l pol active) (d : (Poly s.axes → ℝ) × (Fin k → ℝ)) : Fin k → ℝ :=
  let out := s.C⁻¹ *ᵥ Sum.elim d.2 0
  if pol = .separate then
    let epsilon := d.1 - s.Qᵀ *ᵥ fun i => out (.inl i)
    fun i => out (.inl i) - (s.Gᵀ *ᵥ (-epsilon)) i
  else fun i => out (.inl i)

open Classical in
/-- `completeJustInTimeMapping`, PartitionOfUnityMapping.hpp:410-424, with SphericalVertexCluster.hpp:242-253: what is
added to the written values -/
noncomputable def Mapping.complete (p : Mapping n m pol active) (d : WriteCache p) (i : Fin n) : ℝ :=
  ∑ c, if 0 < ∑ j, (d c).2 j ^ 2 then
    ∑ l, if (p.clusters.get c).ins.get l = i then evaluateCache (p.clusters.get c).solver (d c) l else 0
  else 0

end Verif.Pum
