import Verif.Mesh.Box
import Mathlib.Data.List.Sort
import Mathlib.Algebra.BigOperators.Fin

/-!
# Meshes

Model of `/repo/src/mesh/Mesh.cpp`, `Filter.hpp`, `Vertex.hpp`, `Edge.cpp`, `Triangle.cpp` and
`Tetrahedron.cpp` (construction, comparison). The ID of a vertex is its position
(Mesh.cpp:104-110, vertices are only ever appended or all removed), so an element is the list of the
IDs of its vertices. Pointers to vertices are represented by the IDs.
-/

set_option autoImplicit false

namespace Verif

/-- `mesh::Vertex`; the ID is the position in the mesh. -/
structure Vertex (d : ℕ) where
  coords : Pt d
  globalIndex : ℤ := -1
  owner : Bool := true
  tagged : Bool := false
deriving DecidableEq

namespace Vertex

variable {d : ℕ}

/-- `Vertex::operator==`, Vertex.hpp, which is `math::equals` on the coordinates, i.e. Eigen's
relative `isApprox` with tolerance 1e-14 (differences.hpp:11-17): squared norms are compared. -/
def same (v w : Vertex d) : Prop :=
  ∑ i, (v.coords i - w.coords i) ^ 2 ≤
    tol ^ 2 * min (∑ i, v.coords i ^ 2) (∑ i, w.coords i ^ 2)

instance (v w : Vertex d) : Decidable (v.same w) := by unfold same; exact inferInstance

end Vertex

/-- An element: the IDs of its vertices. -/
abbrev Cell := List ℕ

/-- `mesh::Mesh` (data, index structures and partitioning information are modelled elsewhere). -/
structure Mesh (d : ℕ) where
  verts : List (Vertex d)
  edges : List Cell
  tris : List Cell
  tets : List Cell

namespace Mesh

variable {d : ℕ}

/-- Mesh.cpp:280-292 or a new mesh -/
def empty (d : ℕ) : Mesh d := ⟨[], [], [], []⟩

/-- The constructors sort the vertices by ID, Edge.cpp:12-23, Triangle.cpp:57-73,
Tetrahedron.cpp:12-38. -/
def mkCell (vs : List ℕ) : Cell := vs.insertionSort (· ≤ ·)

/-- `createVertex`, Mesh.cpp:104-110; the new ID is the number of vertices. -/
def createVertex (m : Mesh d) (v : Vertex d) : Mesh d × ℕ := ({ m with verts := m.verts ++ [v] }, m.verts.length)

/-- `createEdge` (two IDs), Mesh.cpp:112-118 -/
def createEdge (m : Mesh d) (c : List ℕ) : Mesh d := { m with edges := m.edges ++ [mkCell c] }

/-- `createTriangle` (three IDs) -/
def createTriangle (m : Mesh d) (c : List ℕ) : Mesh d := { m with tris := m.tris ++ [mkCell c] }

/-- `createTetrahedron` (four IDs) -/
def createTetrahedron (m : Mesh d) (c : List ℕ) : Mesh d := { m with tets := m.tets ++ [mkCell c] }

/-- `isValidVertexID`, Mesh.cpp:252-255 -/
def isValidVertexID (m : Mesh d) (i : ℤ) : Bool := decide (0 ≤ i) && decide (i < m.verts.length)

/-! ### Filtering and merging -/

/-- The `flat_map` from source IDs to new IDs. -/
abbrev VMap := ℕ → Option ℕ

/-- The vertex loop of `filterMesh`, Filter.hpp:23-32; `k` is the ID of the next source vertex. -/
def filterVerts (p : Vertex d → Bool) : List (Vertex d) → ℕ → Mesh d × VMap → Mesh d × VMap
  | [], _, st => st
  | v :: vs, k, (m, f) =>
    if p v then
      let (m', i) := m.createVertex { coords := v.coords, globalIndex := v.globalIndex, owner := v.owner,
                                      tagged := v.tagged }
      filterVerts p vs (k + 1) (m', Function.update f k (some i))
    else filterVerts p vs (k + 1) (m, f)

/-- The element loops of `filterMesh`, Filter.hpp:34-69: an element is created if all of its vertices
are in the map. -/
def filterCells (create : Mesh d → List ℕ → Mesh d) (f : VMap) : List Cell → Mesh d → Mesh d
  | [], m => m
  | c :: cs, m =>
    if c.all (fun i => (f i).isSome) then filterCells create f cs (create m (c.filterMap f))
    else filterCells create f cs m

/-- `filterMesh`, Filter.hpp:15-70 -/
def filter (dst src : Mesh d) (p : Vertex d → Bool) : Mesh d :=
  let (m, f) := filterVerts p src.verts 0 (dst, fun _ => none)
  filterCells createTetrahedron f src.tets <|
  filterCells createTriangle f src.tris <|
  filterCells createEdge f src.edges m

/-- The element loops of `addMesh`, Mesh.cpp:378-405; the assertions that all vertices are in the map
are checked: `none`. -/
def addCells (create : Mesh d → List ℕ → Mesh d) (f : VMap) : List Cell → Mesh d → Option (Mesh d)
  | [], m => some m
  | c :: cs, m =>
    if c.all (fun i => (f i).isSome) then addCells create f cs (create m (c.filterMap f)) else none

/-- `addMesh`, Mesh.cpp:354-408 -/
def addMesh (dst delta : Mesh d) : Option (Mesh d) :=
  let (m, f) := filterVerts (fun _ => true) delta.verts 0 (dst, fun _ => none)
  do
    let m ← addCells createEdge f delta.edges m
    let m ← addCells createTriangle f delta.tris m
    addCells createTetrahedron f delta.tets m

/-! ### Preprocessing -/

/-- Comparison of two vertices given by ID. -/
def vertEq (m : Mesh d) (i j : ℕ) : Bool :=
  match m.verts[i]?, m.verts[j]? with
  | some v, some w => decide (v.same w)
  | _, _ => false

/-- `operator==` of elements, `std::is_permutation` with the comparison of vertices, Edge.cpp:44-48,
Triangle.cpp:102-106, Tetrahedron.cpp:64-68: for each vertex of `a` take a matching one out of `b`.
(Since the comparison is not transitive, implementations of the standard library may differ in cases
where several vertices are within the tolerance of each other.) -/
def isPerm (m : Mesh d) : Cell → Cell → Bool
  | [], b => b.isEmpty
  | i :: a, b =>
    match b.find? (fun j => vertEq m i j) with
    | some j => isPerm m a (b.erase j)
    | none => false

/-- `std::unique`: keeps the first element of every group of consecutive equal ones; `x` is the last
kept element. -/
def uniqueFrom (eq : Cell → Cell → Bool) (x : Cell) : List Cell → List Cell
  | [] => [x]
  | y :: l => if eq x y then uniqueFrom eq x l else x :: uniqueFrom eq y l

def unique (eq : Cell → Cell → Bool) : List Cell → List Cell
  | [] => []
  | x :: l => uniqueFrom eq x l

/-- `operator<` of elements: lexicographic by ID, Edge.hpp:63-67, Triangle.hpp:127-131,
Tetrahedron.hpp:65-69. -/
def cellLe : Cell → Cell → Bool
  | [], _ => true
  | _ :: _, [] => false
  | a :: as, b :: bs => decide (a < b) || (decide (a = b) && cellLe as bs)

/-- Sort and remove duplicates, Mesh.cpp:429-432, 435-438, 441-444. -/
def dedupCells (m : Mesh d) (l : List Cell) : List Cell := unique (isPerm m) (l.insertionSort fun a b => cellLe a b = true)

/-- `removeDuplicates`, Mesh.cpp:426-450 -/
def removeDuplicates (m : Mesh d) : Mesh d :=
  { m with tets := dedupCells m m.tets, tris := dedupCells m m.tris, edges := dedupCells m m.edges }

/-- `sortedVertexPtrsFor`, Mesh.cpp:454-474: sorted by address `ptr`. -/
def sortedPtrs (ptr : ℕ → ℕ) (c : Cell) : List ℕ := c.insertionSort fun i j => ptr i ≤ ptr j

/-- `createTriangleIfMissing` / `createEdgeIfMissing`, Mesh.cpp:500-505, 524-529: the state is the
set of known elements (sorted by address) and the list of elements. -/
def createIfMissing (st : List (List ℕ) × List Cell) (c : List ℕ) : List (List ℕ) × List Cell :=
  if c ∈ st.1 then st else (c :: st.1, st.2 ++ [mkCell c])

/-- The faces created for a tetrahedron, Mesh.cpp:506-513. -/
def facesOf : List ℕ → List (List ℕ)
  | [a, b, c, d] => [[a, b, c], [a, b, d], [a, c, d], [b, c, d]]
  | _ => []

/-- The edges created for a triangle, Mesh.cpp:530-536. -/
def edgesOf : List ℕ → List (List ℕ)
  | [a, b, c] => [[a, b], [a, c], [b, c]]
  | _ => []

/-- One of the two completion loops. -/
def complete (ptr : ℕ → ℕ) (sub : List ℕ → List (List ℕ)) (parents cells : List Cell) : List Cell :=
  (parents.foldl (fun st t => (sub (sortedPtrs ptr t)).foldl createIfMissing st)
    (cells.map (sortedPtrs ptr), cells)).2

/-- `generateImplictPrimitives`, Mesh.cpp:477-540 -/
def generateImplicit (ptr : ℕ → ℕ) (m : Mesh d) : Mesh d :=
  if m.tris = [] ∧ m.tets = [] then m
  else
    let tris := complete ptr facesOf m.tets m.tris
    { m with tris := tris, edges := complete ptr edgesOf tris m.edges }

/-- `preprocess`, Mesh.cpp:420-424 -/
def preprocess (ptr : ℕ → ℕ) (m : Mesh d) : Mesh d := generateImplicit ptr (removeDuplicates m)

end Mesh
end Verif
