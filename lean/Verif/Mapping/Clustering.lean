import Verif.Mapping.Pum
import Mathlib.Data.List.Sort
import Mathlib.Algebra.Order.Floor.Defs
import Mathlib.Algebra.Order.Floor.Semiring
import Mathlib.Algebra.Order.Floor.Ring
import Mathlib.Algebra.Order.Archimedean.Real.Basic

/-!
The centers and the radius of the clusters of the partition of unity mapping:
/repo/src/mapping/impl/CreateClustering.hpp.

`X` is `inMesh`, `Y` is `outMesh`. Vertices have three coordinates; in two dimensions the third one is zero, so that the
third axis of the bounding box has length zero. This is what the code gets from `nClusters{1, 1, 1}`, and the functions
below treat all axes alike. Arithmetic is exact over ℝ. `none` stands for an error message or undefined behaviour.
-/

set_option autoImplicit false

namespace Verif.Pum
open Rbf

/-- `index().getClosestVertex`: some vertex with the smallest distance. Nothing is assumed about ties. -/
structure Nearest {n : ℕ} (X : Fin n → Point) where
  pick : Point → Fin n
  valid : ∀ p i, distance (X (pick p)) p ≤ distance (X i) p

variable {n m : ℕ}

/-- `minCorner` of the bounding box of all vertices, Index.cpp:369-391 -/
noncomputable def lowest (X : Fin n → Point) (d : Fin 3) : ℝ := ⨅ i, X i d

/-- `maxCorner` -/
noncomputable def highest (X : Fin n → Point) (d : Fin 3) : ℝ := ⨆ i, X i d

/-- `getEdgeLength`, BoundingBox.cpp:100-105 -/
noncomputable def edge (X : Fin n → Point) (d : Fin 3) : ℝ := |highest X d - lowest X d|

/-- `center`, BoundingBox.cpp:83-88 -/
noncomputable def boxCenter (X : Fin n → Point) : Point := fun d => (highest X d + lowest X d) * 0.5

/-- The samples of `estimateClusterRadius`, lines 226-253: the vertices which are closest to the center of the box and
to the points a quarter of an edge below and above it, in each of the `dim` directions -/
noncomputable def samples (dim : ℕ) {X : Fin n → Point} (N : Nearest X) : List (Fin n) :=
  N.pick (boxCenter X) :: ((List.finRange 3).filter fun d => decide (d.val < dim)).flatMap fun d =>
    let lower := Function.update (boxCenter X) d (boxCenter X d - edge X d * 0.25)
    [N.pick lower, N.pick (Function.update lower d (lower d + edge X d * 0.5))]

/-- The body of the loop in lines 256-268: the distance of the `k`-th closest vertex. The largest of the `k` smallest
values does not depend on how `getClosestVertices` resolves ties. `none` is the dereferenced end iterator for `k = 0`. -/
noncomputable def radiusAt (X : Fin n → Point) (k : ℕ) (s : Fin n) : Option ℝ :=
  ((((List.finRange n).map fun i => squaredDifference (fun _ => true) (X i) (X s)).insertionSort (· ≤ ·)).take k).getLast?.map Real.sqrt

/-- `estimateClusterRadius`, lines 223-278: the median -/
noncomputable def estimateRadius (dim k : ℕ) {X : Fin n → Point} (N : Nearest X) : Option ℝ :=
  ((samples dim N).mapM (radiusAt X k)).bind fun r => (r.insertionSort (· ≤ ·))[r.length / 2]?

/-- The parameters of the grid: `inDim`, `clusterRadius`, `relativeOverlap`, `projectClustersToInput` -/
structure Grid where
  dim : ℕ
  radius : ℝ
  overlap : ℝ
  project : Bool

namespace Grid
variable (g : Grid) (X : Fin n → Point) (d : Fin 3)

/-- `maximumCenterDistance`, line 373 -/
noncomputable def maxDistance : ℝ := √(4 / g.dim) * g.radius * (1 - g.overlap)

/-- `nClustersGlobal`, lines 377-379; the later increment in line 401 is only used for messages. -/
noncomputable def count : ℕ := ⌈max 1 (edge X d / g.maxDistance)⌉₊

/-- `distances`, line 393 -/
noncomputable def spacing : ℝ := edge X d / g.count X d

/-- `start` after step 5, lines 394-407 -/
noncomputable def start0 : ℝ := if g.project then lowest X d else lowest X d + 0.5 * g.spacing X d

/-- `start` after step 6, lines 419-423 -/
noncomputable def start : ℝ :=
  if 0 < g.spacing X d then g.start0 X d + ⌈(lowest X d - g.start0 X d) / g.spacing X d - tolerance⌉ * g.spacing X d else g.start0 X d

/-- `nClustersLocal`, lines 418-427 -/
noncomputable def countLocal : ℕ :=
  if 0 < g.spacing X d then (1 + ⌊(highest X d - g.start X d) / g.spacing X d + tolerance⌋).toNat else 1

/-- The centers of step 7, lines 440-463. The position `zCurve` of a center is its position in the nested loops, so the
list is in the order of the container. The coordinates are added up in the code. -/
noncomputable def centers : List Point :=
  (List.range (g.countLocal X 0)).flatMap fun x : ℕ => (List.range (g.countLocal X 1)).flatMap fun y : ℕ => (List.range (g.countLocal X 2)).map fun z : ℕ =>
    ![g.start X 0 + x * g.spacing X 0, g.start X 1 + y * g.spacing X 1, g.start X 2 + z * g.spacing X 2]

end Grid

/-- The body of `tagEmptyClusters`, lines 132-140. The second entry is `isTagged`. -/
noncomputable def tagEmpty {k : ℕ} (radius : ℝ) (M : Fin k → Point) (v : Point × Bool) : Point × Bool := (v.1, v.2 || (within M v.1 radius).isEmpty)

/-- The body of `projectClusterCentersToinputMesh`, lines 150-160 -/
def moveCenter {X : Fin n → Point} (N : Nearest X) (v : Point × Bool) : Point × Bool := if v.2 then v else (X (N.pick v.1), v.2)

/-- `zCurveNeighborOffsets`, lines 58-82, for two (`flat`) or three dimensions -/
def neighborOffsets (flat : Bool) (c : Fin 3 → ℕ) : List ℤ :=
  let dirs : List (ℤ × ℤ × ℤ) :=
    if flat then [(-1, -1, 0), (-1, 0, 0), (-1, 1, 0), (0, -1, 0), (0, 1, 0), (1, -1, 0), (1, 0, 0), (1, 1, 0)]
    else [(-1, -1, -1), (-1, -1, 0), (-1, -1, 1), (-1, 0, 0), (-1, 0, 1), (-1, 0, -1), (-1, 1, 0), (-1, 1, 1), (-1, 1, -1), (0, -1, -1), (0, -1, 0), (0, -1, 1), (0, 0, 1), (0, 0, -1),
      (0, 1, 0), (0, 1, 1), (0, 1, -1), (1, -1, -1), (1, -1, 0), (1, -1, 1), (1, 0, 0), (1, 0, 1), (1, 0, -1), (1, 1, 0), (1, 1, 1), (1, 1, -1)]
  dirs.map fun v => (v.1 * c 1 + v.2.1) * c 2 + v.2.2

open Classical in
/-- Whether `getNeighborsWithinSphere` finds a center, lines 96-122 -/
noncomputable def hasNeighbor (threshold : ℝ) (offsets : List ℤ) (l : List (Point × Bool)) (id : ℕ) (v : Point) : Bool :=
  offsets.any fun off => decide (off ≠ 0 ∧ 0 ≤ (id : ℤ) + off ∧ ∃ w, l[((id : ℤ) + off).toNat]? = some (w, false) ∧ squaredDifference (fun _ => true) v w < threshold ^ 2)

/-- The body of the loop of `tagDuplicateCenters`, lines 187-194 -/
noncomputable def tagDuplicate (threshold : ℝ) (offsets : List ℤ) (l : List (Point × Bool)) (id : ℕ) : List (Point × Bool) :=
  match l[id]? with
  | some (v, false) => if hasNeighbor threshold offsets l id v then l.set id (v, true) else l
  | _ => l

/-- `tagDuplicateCenters`, lines 173-195 -/
noncomputable def tagDuplicates (threshold : ℝ) (offsets : List ℤ) (l : List (Point × Bool)) : List (Point × Bool) :=
  (List.range l.length).foldl (tagDuplicate threshold offsets) l

/-- The smallest entry of `distances`, line 478 -/
noncomputable def smallestSpacing (g : Grid) (X : Fin n → Point) : ℝ :=
  if g.dim = 2 then min (g.spacing X 0) (g.spacing X 1) else min (g.spacing X 0) (min (g.spacing X 1) (g.spacing X 2))

/-- The centers with their tags before step 10, lines 465-497 -/
noncomputable def tagCenters (g : Grid) {X : Fin n → Point} (N : Nearest X) (Y : Fin m → Point) (jit : Bool) : List (Point × Bool) :=
  let onOutput := fun l : List (Point × Bool) => if jit then l else l.map (tagEmpty g.radius Y)
  let l := onOutput (((g.centers X).map fun c => (c, false)).map (tagEmpty g.radius X))
  if g.project then
    onOutput (tagDuplicates (0.4 * smallestSpacing g X) (neighborOffsets (decide (g.countLocal X 2 = 1)) (g.countLocal X)) (l.map (moveCenter N)))
  else l

/-- `removeTaggedVertices`, lines 205-208 -/
def untagged (l : List (Point × Bool)) : List Point := (l.filter fun v => !v.2).map Prod.fst

/-- The single cluster, lines 352-359 -/
noncomputable def singleCluster (X : Fin n → Point) : ℝ × List Point :=
  let longest := max (edge X 0) (max (edge X 1) (edge X 2))
  ((if longest = 0 then 1 else longest) * 2, [boxCenter X])

open Classical in
/-- `createClustering`, lines 302-505. With a radius of zero the number of clusters is the conversion of infinity to an
integer (`none`). `jit` is `outMesh->isJustInTime()`, `k` is `verticesPerCluster`. -/
noncomputable def createClustering (dim : ℕ) (overlap : ℝ) (k : ℕ) (project jit : Bool) {X : Fin n → Point} (N : Nearest X) (Y : Fin m → Point) : Option (ℝ × List Point) :=
  if n = 0 ∨ (m = 0 ∧ jit = false) then some (0, [])
  else if n < k * 2 then some (singleCluster X)
  else (estimateRadius dim k N).bind fun R =>
    let g : Grid := ⟨dim, R, overlap, project⟩
    if g.maxDistance ≤ 0 then none
    else if untagged (tagCenters g N Y jit) = [] then none
    else some (R, untagged (tagCenters g N Y jit))

end Verif.Pum
