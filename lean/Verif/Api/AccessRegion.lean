import Verif.Dist.RepartitionProps

/-!
# Direct access to a received mesh (C112)

Model of `setMeshAccessRegion` (`/repo/src/precice/impl/ParticipantImpl.cpp:1437-1476`), `getMeshVertexSize` (738-771), `getMeshVertexIDsAndCoordinates` (1478-1545), the
checks of `mapAndReadData` (1257-1322) and `writeAndMapData` (1324-1385), and of `/repo/src/precice/impl/ReceivedMeshContext.cpp:11-45`. The name of the mesh is assumed to be
known; the checks of times and of the kind of data are left out (C31, C36).
-/

set_option autoImplicit false

namespace Verif.Access

open Verif.Repartition

variable {d : ℕ}

/-- Outcome of a call: `undefined` when the code does something without defined behaviour. -/
inductive Out (α : Type) where
  | ok (a : α)
  | error
  | undefined
deriving DecidableEq

inductive Phase where
  | constructed
  | initialized
  | finalized
deriving DecidableEq

/-- What the functions know about the mesh. -/
structure Ctx (d : ℕ) where
  received : Bool
  direct : Bool
  parallel : Bool
  phase : Phase
  region : Option (Box d)
  meshBox : Box d
  mesh : Mesh d

/-- The box with the given limits `[x_min, x_max, y_min, y_max, …]`, BoundingBox.cpp:27-38 -/
def boxOf (d : ℕ) (l : List ℚ) : Box d := ⟨fun i => l.getD (2 * i.val) 0, fun i => l.getD (2 * i.val + 1) 0⟩

/-- `setMeshAccessRegion` -/
def setRegion (c : Ctx d) (bounds : List ℚ) : Out (Ctx d) :=
  if ¬ (c.received = true ∧ c.direct = true) then .error
  else if c.phase = .finalized then .error
  else if c.phase = .initialized then .error
  else if c.region.isSome then .error
  else if bounds.length ≠ d * 2 then .error
  else if ¬ ∀ i : Fin d, bounds.getD (2 * i.val) 0 ≤ bounds.getD (2 * i.val + 1) 0 then .error
  else .ok { c with region := some (boxOf d bounds), meshBox := c.meshBox.join (boxOf d bounds) }

/-- `requiresUserDefinedAccessRegion`, ParticipantImpl.cpp:1868-1871 -/
def Ctx.needsRegion (c : Ctx d) : Bool := c.received && c.parallel

/-- `getMeshVertexSize` -/
def vertexSize (c : Ctx d) : Out ℕ :=
  if c.phase ≠ .initialized ∧ c.received = true then .error
  else if c.received = true ∧ c.direct = true then
    match c.region with
    | some b => .ok (c.mesh.verts.countP (inside b))
    | none => if c.needsRegion then .error else .ok c.mesh.verts.length
  else .ok c.mesh.verts.length

/-- `filterVerticesToLocalAccessRegion`, ReceivedMeshContext.cpp:29-45: the IDs and the vertices. -/
def accessible (c : Ctx d) : List (Vertex d × ℕ) :=
  c.mesh.verts.zipIdx.filter fun e => match c.region with
    | some b => inside b e.1
    | none => !c.needsRegion

/-- `getMeshVertexIDsAndCoordinates` with output buffers of the given sizes: what is written into them. -/
def idsAndCoordinates (c : Ctx d) (nIds nCoords : ℕ) : Out (List ℕ × List ℚ) :=
  if ¬ (c.received = true ∧ c.direct = true) then .error
  else if c.needsRegion = true ∧ c.region.isNone then .error
  else if c.phase ≠ .initialized then .error
  else if nIds = 0 ∧ nCoords = 0 then .ok ([], [])
  else if nIds ≠ (accessible c).length then .error
  else if nCoords ≠ d * (accessible c).length then .error
  else .ok ((accessible c).map fun e => e.2, (accessible c).flatMap fun e => List.ofFn e.1.coords)

/-- The points given by a list of coordinates; a remainder is ignored. -/
def pointsOf (d : ℕ) (l : List ℚ) : List (Pt d) := (List.range (l.length / d)).map fun k i => l.getD (d * k + i.val) 0

/-- `rowwise().minCoeff()` of at least one column. -/
def minOf (d : ℕ) (p : Pt d) (ps : List (Pt d)) : Pt d := ps.foldl (fun a q i => min (a i) (q i)) p

/-- `rowwise().maxCoeff()` of at least one column. -/
def maxOf (d : ℕ) (p : Pt d) (ps : List (Pt d)) : Pt d := ps.foldl (fun a q i => max (a i) (q i)) p

/-- `checkVerticesInsideAccessRegion`, ReceivedMeshContext.cpp:11-27; the minimum of no numbers is undefined. -/
def checkInside (region : Option (Box d)) (coords : List ℚ) : Out Unit :=
  match region with
  | none => .ok ()
  | some b =>
    match pointsOf d coords with
    | [] => .undefined
    | p :: ps => if (∀ i, b.lo i ≤ minOf d p ps i) ∧ ∀ i, maxOf d p ps i ≤ b.hi i then .ok () else .error

/-- The checks of the size of the values for data with `dim` components after the check of the region, ParticipantImpl.cpp:1306-1318, 1367-1377: the points that are mapped. -/
def checkedPoints (region : Option (Box d)) (dim : ℕ) (coords : List ℚ) (nValues : ℕ) : Out (List (Pt d)) :=
  match checkInside region coords with
  | .ok () => if coords.length / d * dim = nValues then .ok (pointsOf d coords) else .error
  | .error => .error
  | .undefined => .undefined

/-- The points `mapAndReadData` maps data to; `jit` tells whether a just-in-time mapping is configured. -/
def readPoints (c : Ctx d) (jit : Bool) (dim : ℕ) (coords : List ℚ) (nValues : ℕ) : Out (List (Pt d)) :=
  if c.phase ≠ .initialized then .error
  else if ¬ (c.received = true ∧ c.direct = true) then .error
  else if c.needsRegion = true ∧ c.region.isNone then .error
  else if c.mesh.verts = [] then .error
  else if jit = false then .error
  else if coords = [] ∧ nValues = 0 then .ok []
  else checkedPoints c.region dim coords nValues

/-- The points `writeAndMapData` maps data from; it looks at the mesh last. -/
def writePoints (c : Ctx d) (jit : Bool) (dim : ℕ) (coords : List ℚ) (nValues : ℕ) : Out (List (Pt d)) :=
  if c.phase ≠ .initialized then .error
  else if ¬ (c.received = true ∧ c.direct = true) then .error
  else if c.needsRegion = true ∧ c.region.isNone then .error
  else if jit = false then .error
  else if coords = [] ∧ nValues = 0 then .ok []
  else match checkedPoints c.region dim coords nValues with
    | .ok ps => if c.mesh.verts = [] then .error else .ok ps
    | o => o

end Verif.Access
