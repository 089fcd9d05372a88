import Verif.Mapping.Barycenter

/-!
# Nearest-neighbor, nearest-projection and linear-cell-interpolation mappings

Model of `/repo/src/mapping/NearestNeighborBaseMapping.cpp`, `NearestNeighborMapping.cpp`,
`NearestNeighborGradientMapping.cpp`, `NearestProjectionMapping.cpp`, `LinearCellInterpolationMapping.cpp`,
`BarycentricBaseMapping.cpp` and of the searches in `/repo/src/query/Index.cpp`.

Data vectors are flat (`vertex * dimensions + component`), represented as functions from the index. The tree
searches of Boost.Geometry are not modelled, they are an argument (`Query`) with the documented result
(`Query.Valid`). Events, logging and distance statistics are left out. One rank.
-/

set_option autoImplicit false

namespace Verif.Mapping

open Geometry

/-- A flat data vector. -/
abbrev Data := ℕ → ℚ

/-- `m.col(i) = f` for a vector mapped as matrix with `n` rows. -/
def setCol (n i : ℕ) (f : ℕ → ℚ) (x : Data) : Data := fun j => if j / n = i then f (j % n) else x j

/-- `m.col(i) += f` for a vector mapped as matrix with `n` rows, also `segment<n>(i * n) += f`. -/
def addCol (n i : ℕ) (f : ℕ → ℚ) (x : Data) : Data := fun j => if j / n = i then x j + f (j % n) else x j

/-- `m.col(i)` -/
def col (n i : ℕ) (x : Data) : ℕ → ℚ := fun k => x (i * n + k)

/-- The results of the spatial queries (Index.cpp:171-210, 258-268), as functions of mesh and location. -/
structure Query (d : ℕ) where
  closestVertex : Mesh d → Pt d → ℕ
  closestEdges : Mesh d → Pt d → ℕ → List ℕ
  closestTriangles : Mesh d → Pt d → ℕ → List ℕ
  enclosingTetrahedra : Mesh d → Pt d → List ℕ

/-- A point of the element: a convex combination of its corners. -/
def InCell {d : ℕ} (m : Mesh d) (c : Cell) (q : Pt d) : Prop :=
  ∃ ws : List ℚ, ws.length = c.length ∧ (∀ w ∈ ws, 0 ≤ w) ∧ ws.sum = 1 ∧ q = combine (c.map (coordsOf m)) ws

/-- What the tree searches guarantee: the closest vertex; the closest edges by their distance as segments.
Triangles are ordered by the distance to their bounding boxes (Index.cpp:86-112), so nothing is known about
the distance to the triangles themselves, and at least one is returned if there is one. -/
structure Query.Valid {d : ℕ} (q : Query d) : Prop where
  vertex : ∀ m u, m.verts ≠ [] → q.closestVertex m u < m.verts.length ∧
    ∀ i < m.verts.length, dist2 u (coordsOf m (q.closestVertex m u)) ≤ dist2 u (coordsOf m i)
  edge : ∀ m u n, (∀ i ∈ q.closestEdges m u n, i < m.edges.length) ∧
    (0 < n → ∀ c ∈ m.edges, ∃ i ∈ q.closestEdges m u n, ∀ p, InCell m c p →
      ∃ p', InCell m (m.edges[i]?.getD []) p' ∧ dist2 u p' ≤ dist2 u p)
  triangle : ∀ m u n, ∀ i ∈ q.closestTriangles m u n, i < m.tris.length
  tetrahedron : ∀ m u, ∀ i ∈ q.enclosingTetrahedra m u, i < m.tets.length

/-! ### Searches -/

/-- `findVertexProjection`, Index.cpp:314-318 -/
def findVertexProjection {d : ℕ} (q : Query d) (m : Mesh d) (u : Pt d) : Polation :=
  let i := q.closestVertex m u
  ⟨[(i, 1)], dist2 u (coordsOf m i)⟩

/-- The loops over the matches that collect admissible polations, Index.cpp:322-329 and 346-353. -/
def candidates {d : ℕ} (m : Mesh d) (u : Pt d) (cells : List Cell) (ids : List ℕ) : List Polation :=
  ids.filterMap fun i =>
    match cells[i]? with
    | none => none
    | some c =>
      match polation m u c with
      | none => none
      | some p => if p.isInterpolation then some p else none

/-- `std::min_element` with `ProjectionMatch::operator<`, Index.hpp:57-60: the first minimal element. -/
def minElement : List Polation → Option Polation
  | [] => none
  | p :: ps => some (ps.foldl (fun m x => if x.dist2 < m.dist2 then x else m) p)

/-- `findEdgeProjection`, Index.cpp:320-342 -/
def findEdgeProjection {d : ℕ} (q : Query d) (m : Mesh d) (u : Pt d) (n : ℕ) (closestVertex : Polation) : Polation :=
  match minElement (candidates m u m.edges (q.closestEdges m u n)) with
  | none => closestVertex
  | some p => if p.dist2 > closestVertex.dist2 then closestVertex else p

/-- `findTriangleProjection`, Index.cpp:344-367 -/
def findTriangleProjection {d : ℕ} (q : Query d) (m : Mesh d) (u : Pt d) (n : ℕ) (closestVertex : Polation) : Polation :=
  match minElement (candidates m u m.tris (q.closestTriangles m u n)) with
  | none => findEdgeProjection q m u n closestVertex
  | some p => if p.dist2 > closestVertex.dist2 then findEdgeProjection q m u n closestVertex else p

/-- `findNearestProjection`, Index.cpp:277-284 -/
def findNearestProjection {d : ℕ} (q : Query d) (m : Mesh d) (u : Pt d) (n : ℕ) : Polation :=
  if d = 2 then findEdgeProjection q m u n (findVertexProjection q m u)
  else findTriangleProjection q m u n (findVertexProjection q m u)

/-- `findCellOrProjection`, Index.cpp:286-312: the first admissible cell. -/
def findCellOrProjection {d : ℕ} (q : Query d) (m : Mesh d) (u : Pt d) (n : ℕ) : Polation :=
  let found := if d = 2 then candidates m u m.tris (q.closestTriangles m u n)
    else candidates m u m.tets (q.enclosingTetrahedra m u)
  match found with
  | p :: _ => p
  | [] => findNearestProjection q m u n

/-! ### Projection and cell based mappings -/

/-- `Operation`, BarycentricBaseMapping.hpp -/
structure Operation where
  out : ℕ
  in' : ℕ
  weight : ℚ
deriving DecidableEq

/-- `addPolation`, BarycentricBaseMapping.cpp:166-173 -/
def addPolation (out : ℕ) (p : Polation) (ops : List Operation) : List Operation :=
  ops ++ (p.elems.filter fun e => ¬ equals e.2 0).map fun e => ⟨out, e.1, e.2⟩

/-- The order of `postProcessOperations`, BarycentricBaseMapping.cpp:179-189 -/
def opLe (a b : Operation) : Bool := decide (a.in' < b.in') || (decide (a.in' = b.in') && decide (a.out ≤ b.out))

/-- `Mapping::Constraint` -/
inductive Constraint where
  | consistent
  | conservative
  | scaledConsistentSurface
  | scaledConsistentVolume
deriving DecidableEq

/-- `postProcessOperations`, BarycentricBaseMapping.cpp:175-191; `std::sort` is not stable, the order of
operations with equal vertices is irrelevant. -/
def postProcess (c : Constraint) (ops : List Operation) : List Operation :=
  if c = .conservative then ops.insertionSort fun a b => opLe a b = true else ops

/-- The choice of `origins` and `searchSpace` at the beginning of each `computeMapping`. -/
def setup {d : ℕ} (c : Constraint) (input output : Mesh d) : Mesh d × Mesh d :=
  if c = .conservative then (input, output) else (output, input)

/-- The two kinds of mapping based on barycentric coordinates. -/
inductive Kind where
  | projection
  | cell
deriving DecidableEq

/-- The search of the kind of mapping; `nnearest` is 4. -/
def search {d : ℕ} (k : Kind) (q : Query d) (m : Mesh d) (u : Pt d) : Polation :=
  match k with
  | .projection => findNearestProjection q m u 4
  | .cell => findCellOrProjection q m u 4

/-- The loop over the origins of `computeMapping`, NearestProjectionMapping.cpp:86-108,
LinearCellInterpolationMapping.cpp:84-93 -/
def computeOps {d : ℕ} (k : Kind) (q : Query d) (origins searchSpace : Mesh d) : List Operation :=
  (List.range origins.verts.length).foldl
    (fun ops i => addPolation i (search k q searchSpace (coordsOf origins i)) ops) []

/-- `computeMapping`, NearestProjectionMapping.cpp:45-122, LinearCellInterpolationMapping.cpp:31-122 -/
def computeMapping {d : ℕ} (k : Kind) (q : Query d) (c : Constraint) (input output : Mesh d) : List Operation :=
  let (origins, searchSpace) := setup c input output
  postProcess c (computeOps k q origins searchSpace)

/-- `mapTemplatedConsistent<n>`, BarycentricBaseMapping.cpp:39-54 -/
def mapOpsConsistent (n : ℕ) (ops : List Operation) (x : Data) (out : Data) : Data :=
  ops.foldl (fun o op => addCol n op.out (fun k => op.weight * col n op.in' x k) o) out

/-- `mapTemplatedConservative<n>`, BarycentricBaseMapping.cpp:56-71 -/
def mapOpsConservative (n : ℕ) (ops : List Operation) (x : Data) (out : Data) : Data :=
  ops.foldl (fun o op => addCol n op.in' (fun k => op.weight * col n op.out x k) o) out

/-- `Mapping::map` of a projection or cell mapping into a zero vector (DataContext.cpp:147-149),
without the scaling of scaled-consistent mappings. -/
def mapProjection {d : ℕ} (k : Kind) (q : Query d) (c : Constraint) (input output : Mesh d) (n : ℕ) (x : Data) : Data :=
  let ops := computeMapping k q c input output
  if c = .conservative then mapOpsConservative n ops x 0 else mapOpsConsistent n ops x 0

/-! ### Nearest neighbor mappings -/

/-- `computeMapping`, NearestNeighborBaseMapping.cpp:30-84: the vertex indices -/
def nnIndices {d : ℕ} (q : Query d) (c : Constraint) (input output : Mesh d) : List ℕ :=
  let (origins, searchSpace) := setup c input output
  (List.range origins.verts.length).map fun i => q.closestVertex searchSpace (coordsOf origins i)

/-- `mapConservative`, NearestNeighborMapping.cpp:50-68 -/
def nnConservative (n nIn : ℕ) (idx : List ℕ) (x out : Data) : Data :=
  (List.range nIn).foldl (fun o i => addCol n (idx[i]?.getD 0) (col n i x) o) out

/-- `mapConsistent`, NearestNeighborMapping.cpp:70-86 -/
def nnConsistent (n nOut : ℕ) (idx : List ℕ) (x out : Data) : Data :=
  (List.range nOut).foldl (fun o i => setCol n i (col n (idx[i]?.getD 0) x) o) out

/-- `Mapping::map` of a nearest-neighbor mapping into a zero vector, without scaling. -/
def mapNN {d : ℕ} (q : Query d) (c : Constraint) (input output : Mesh d) (n : ℕ) (x : Data) : Data :=
  let idx := nnIndices q c input output
  if c = .conservative then nnConservative n input.verts.length idx x 0
  else nnConsistent n output.verts.length idx x 0

/-- `onMappingComputed`, NearestNeighborGradientMapping.cpp:34-52: the offsets -/
def nngOffsets {d : ℕ} (idx : List ℕ) (origins searchSpace : Mesh d) : List (Pt d) :=
  (List.range idx.length).map fun i => coordsOf origins i - coordsOf searchSpace (idx[i]?.getD 0)

/-- `mapConsistent`, NearestNeighborGradientMapping.cpp:54-87. The gradients form a matrix whose column for flat
index `j` is the gradient of that component. -/
def nngConsistent {d : ℕ} (n nOut : ℕ) (idx : List ℕ) (offsets : List (Pt d)) (x : Data) (grad : ℕ → Pt d) (out : Data) : Data :=
  (List.range nOut).foldl (fun o i =>
    let inputIndex := idx[i]?.getD 0 * n
    (List.range n).foldl (fun o dim =>
      Function.update o (i * n + dim) (x (inputIndex + dim) + dot (offsets[i]?.getD 0) (grad (inputIndex + dim)))) o) out

/-- A consistent nearest-neighbor-gradient mapping into a zero vector. -/
def mapNNG {d : ℕ} (q : Query d) (input output : Mesh d) (n : ℕ) (x : Data) (grad : ℕ → Pt d) : Data :=
  let idx := nnIndices q .consistent input output
  nngConsistent n output.verts.length idx (nngOffsets idx output input) x grad 0

end Verif.Mapping
