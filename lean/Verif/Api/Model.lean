import Verif.Api.MultiLock
import Verif.Api.Quad

/-!
# The participant as seen through its API

Model of the entry checks, the mesh definition functions, the write buffers and the mesh locks of
`/repo/src/precice/impl/ParticipantImpl.cpp`, together with `WriteDataContext.cpp`,
`ValidationMacros.hpp` and `mesh/Utils.hpp`.

What an API call triggers inside of the coupling scheme, the communication and the mappings is modelled
elsewhere. Here it is represented by an arbitrary environment `Env` that is passed with `initialize` and
`advance`. All theorems hold for every environment.

Simplifications: one process, all meshes have the same dimension `d`, no gradient data, no profiling
sections, no NaN or infinite values, no exports, no just-in-time write mapping.
-/

set_option autoImplicit false

namespace Verif.Api

/-- `ParticipantImpl::State`, ParticipantImpl.hpp -/
inductive Phase where
  | constructed
  | initialized
  | finalized
deriving DecidableEq, Repr

/-- `ProvidedMeshContext` / `ReceivedMeshContext` -/
structure MeshCtx (d : ℕ) where
  name : String
  provided : Bool
  /-- `allowDirectAccess` of a received mesh -/
  direct : Bool := false
  /-- `meshRequirement == FULL` -/
  full : Bool
  mesh : Mesh d

/-- The values of one vertex. -/
abbrev Col := List ℚ

/-- `WriteDataContext`; the buffer is the list of its columns. -/
structure WriteCtx where
  mesh : String
  data : String
  dims : ℕ
  buffer : List Col

/-- `ReadDataContext`; `sample t` is what the waveform returns at time `t`, `none` if there is no
sample. `jit`: a just-in-time mapping is configured. -/
structure ReadCtx where
  mesh : String
  data : String
  dims : ℕ
  sample : Option (ℚ → List Col)
  jit : Bool := false

/-- What is asked from the coupling scheme. -/
structure View where
  ongoing : Bool
  complete : Bool
  time : ℚ
  maxStep : ℚ

/-- Effects of coupling scheme, communication and mapping on the participant during `initialize` or
`advance`. -/
structure Env (d : ℕ) where
  /-- no error inside of the coupling scheme, the communication or the mappings -/
  good : Bool := true
  /-- result of `addComputedTime` -/
  atEnd : Bool := true
  /-- `requiresSubsteps` -/
  substeps : Bool := true
  /-- the partner asks for a reinitialization -/
  remoteReset : Bool := false
  /-- addresses of the vertices, only relevant for the order of elements -/
  ptr : ℕ → ℕ := id
  /-- the coupling scheme after the call -/
  view : View
  /-- received meshes -/
  received : String → Mesh d
  /-- what can be read after the call -/
  reads : String → String → Option (ℚ → List Col)

/-- A sample handed over to the coupling scheme: `(mesh, data, time, values)`. -/
abbrev Stored := String × String × ℚ × List Col

/-- `ParticipantImpl` -/
structure Participant (d : ℕ) where
  phase : Phase
  experimental : Bool
  remeshing : Bool
  meshes : List (MeshCtx d)
  locks : MultiLock String
  writes : List WriteCtx
  reads : List ReadCtx
  view : View
  initRequired : Bool := false
  initFulfilled : Bool := false
  /-- all samples stored by `storeBufferedData`, in order -/
  stored : List Stored := []

/-- Return values. -/
inductive Resp where
  | unit
  | bool (b : Bool)
  | num (q : ℚ)
  | ids (l : List ℕ)
  | vals (l : List ℚ)
deriving DecidableEq

/-- Result of a call: success, an error (`PRECICE_CHECK`, exception), or undefined behaviour. -/
inductive Outcome where
  | ok (r : Resp)
  | error
  | ub
deriving DecidableEq

/-- The modelled API calls. -/
inductive Call (d : ℕ) where
  | initialize (e : Env d)
  | advance (dt : ℚ) (e : Env d)
  | finalize
  | isCouplingOngoing
  | isTimeWindowComplete
  | getMaxTimeStepSize
  | requiresInitialData
  | getMeshDimensions (m : String)
  | requiresMeshConnectivityFor (m : String)
  | getMeshVertexSize (m : String)
  | resetMesh (m : String)
  | setMeshVertex (m : String) (pos : List ℚ)
  | setMeshVertices (m : String) (pos : List ℚ) (n : ℕ)
  | setMeshEdge (m : String) (a b : ℤ)
  | setMeshEdges (m : String) (ids : List ℤ)
  | setMeshTriangle (m : String) (a b c : ℤ)
  | setMeshTriangles (m : String) (ids : List ℤ)
  | setMeshQuad (m : String) (a b c e : ℤ)
  | setMeshQuads (m : String) (ids : List ℤ)
  | setMeshTetrahedron (m : String) (a b c e : ℤ)
  | setMeshTetrahedra (m : String) (ids : List ℤ)
  | writeData (m data : String) (ids : List ℤ) (vals : List ℚ)
  | readData (m data : String) (ids : List ℤ) (t : ℚ) (n : ℕ)
  | mapAndReadData (m data : String) (coords : List ℚ) (t : ℚ) (n : ℕ)

namespace Participant

variable {d : ℕ}

/-- `_accessor->meshContext(name)`, `none` if the mesh is not used. -/
def meshCtx (p : Participant d) (m : String) : Option (MeshCtx d) := p.meshes.find? (fun c => c.name = m)

/-- Replace the mesh. -/
def setMesh (p : Participant d) (m : String) (x : Mesh d) : Participant d :=
  { p with meshes := p.meshes.map (fun c => if c.name = m then { c with mesh := x } else c) }

/-- A failed `PRECICE_CHECK` changes nothing. -/
def require (p : Participant d) (c : Prop) [Decidable c] (k : Outcome × Participant d) : Outcome × Participant d :=
  if c then k else (.error, p)

/-- Dereferencing `_accessor`, which is reset by `finalize` (ParticipantImpl.cpp:613). -/
def accessor (p : Participant d) (k : Outcome × Participant d) : Outcome × Participant d :=
  if p.phase = .finalized then (.ub, p) else k

/-- `PRECICE_REQUIRE_MESH_MODIFY`, ValidationMacros.hpp:18-54 -/
def modify (p : Participant d) (m : String) (k : MeshCtx d → Outcome × Participant d) : Outcome × Participant d :=
  p.accessor <|
  match p.meshCtx m with
  | none => (.error, p)
  | some c =>
    p.require (c.provided = true) <|
    match p.locks.check m with
    | some false => k c
    | _ => (.error, p)

/-- `resizeBufferTo`, WriteDataContext.cpp:89-124 -/
def resize (n : ℕ) (clear : Bool) (w : WriteCtx) : WriteCtx :=
  let b := w.buffer.take n ++ List.replicate (n - w.buffer.length) (List.replicate w.dims 0)
  { w with buffer := if clear then b.map (fun _ => List.replicate w.dims 0) else b }

/-- The loops over the write data contexts of a mesh, ParticipantImpl.cpp:806-811, 841-846. -/
def resizeBuffers (p : Participant d) (m : String) (n : ℕ) (clear : Bool) : Participant d :=
  { p with writes := p.writes.map (fun w => if w.mesh = m then resize n clear w else w) }

/-- The coordinates in a list. -/
def toPt (pos : List ℚ) : Pt d := fun i => pos.getD i 0

/-- The `i`-th of several groups of `n` entries. -/
def group {α : Type} (n : ℕ) (l : List α) (i : ℕ) : List α := (l.drop (n * i)).take n

/-- All complete groups of `n` entries. -/
def groups {α : Type} (n : ℕ) (l : List α) : List (List α) := (List.range (l.length / n)).map (group n l)

/-- The loops that create vertices, ParticipantImpl.cpp:834-838. -/
def createVertices (x : Mesh d) : List (Pt d) → Mesh d × List ℕ
  | [] => (x, [])
  | q :: qs =>
    let (x, i) := x.createVertex { coords := q }
    let (x, is) := createVertices x qs
    (x, i :: is)

/-- A connectivity function after its checks: create one element per group. -/
def createCells (create : Mesh d → List ℕ → Mesh d) (x : Mesh d) (cells : List (List ℤ)) : Mesh d :=
  cells.foldl (fun x c => create x (c.map Int.toNat)) x

/-- Common part of the connectivity functions: `dim3` is the check of the tetrahedron functions,
`size` the divisibility check of the functions that take several elements, `unique` the check for
repeated IDs (only in `setMeshTriangle`). -/
def connect (p : Participant d) (m : String) (create : Mesh d → List ℕ → Mesh d) (dim3 : Bool) (n : ℕ)
    (unique : Bool) (ids : List ℤ) : Outcome × Participant d :=
  p.modify m fun c =>
    p.require (dim3 = true → d = 3) <|
    if c.full = false then (.ok .unit, p) else
    p.require (ids.length % n = 0) <|
    p.require (ids.all (fun i => c.mesh.isValidVertexID i) = true) <|
    p.require (unique = true → ids.Nodup) <|
    (.ok .unit, p.setMesh m (createCells create c.mesh (groups n ids)))

/-- Coordinates of four vertices. -/
def corners (x : Mesh d) (ids : Fin 4 → ℕ) : Fin 4 → Pt d :=
  fun k => match x.verts[ids k]? with | some v => v.coords | none => fun _ => 0

/-- The loop of `setMeshQuads`, ParticipantImpl.cpp:1056-1091: the checks of a quad are made after the
previous quads were created. -/
def createQuads (x : Mesh d) : List (List ℤ) → Outcome × Mesh d
  | [] => (.ok .unit, x)
  | q :: qs =>
    let ids : Fin 4 → ℕ := fun k => (q.getD k 0).toNat
    match Quad.split ids (corners x ids) with
    | .error => (.error, x)
    | .ub => (.ub, x)
    | .triangles a b => createQuads ((x.createTriangle a).createTriangle b) qs

/-- `setMeshQuad` / `setMeshQuads`, ParticipantImpl.cpp:975-1092 -/
def quads (p : Participant d) (m : String) (ids : List ℤ) : Outcome × Participant d :=
  p.modify m fun c =>
    if c.full = false then (.ok .unit, p) else
    p.require (ids.length % 4 = 0) <|
    p.require (ids.all (fun i => c.mesh.isValidVertexID i) = true) <|
    let (o, x) := createQuads c.mesh (groups 4 ids)
    (o, p.setMesh m x)

/-- `storeBufferedData` of all contexts, WriteDataContext.cpp:126-129 -/
def store (p : Participant d) (t : ℚ) : Participant d :=
  { p with stored := p.stored ++ p.writes.map (fun w => (w.mesh, w.data, t, w.buffer)) }

/-- `resetWrittenData`, ParticipantImpl.cpp:1764-1771 -/
def resetWritten (p : Participant d) : Participant d :=
  { p with writes := p.writes.map (fun w => { w with buffer := w.buffer.map (fun c => c.map (fun _ => 0)) }) }

/-- What `setupCommunication` does to meshes and buffers: provided meshes are preprocessed
(ParticipantImpl.cpp:321-390), received meshes arrive, buffers are resized (1600-1621; the loop over the
meshes and the contexts of each is written as a loop over the contexts, mesh names are unique). Global
indices and ownership are modelled elsewhere. -/
def setup (p : Participant d) (e : Env d) : Participant d :=
  let meshes := p.meshes.map (fun c : MeshCtx d =>
    { c with mesh := if c.provided then c.mesh.preprocess e.ptr else e.received c.name })
  { p with meshes := meshes
           writes := p.writes.map (fun w =>
             match meshes.find? (fun c => c.name = w.mesh) with
             | some c => resize c.mesh.verts.length (!c.provided) w
             | none => w) }

/-- What coupling scheme and mappings leave behind. -/
def adopt (p : Participant d) (e : Env d) : Participant d :=
  { p with view := e.view, reads := p.reads.map (fun r => { r with sample := e.reads r.mesh r.data }) }

/-- The work of `initialize`, ParticipantImpl.cpp:270-299 -/
def initDone (p : Participant d) (e : Env d) : Participant d :=
  let p := p.setup e
  let p := { p with locks := p.locks.lockAll }
  let p := (p.store 0).resetWritten.adopt e
  { p with phase := .initialized }

/-- `initialize`, ParticipantImpl.cpp:248-300. An error inside of the coupling scheme, the
communication or the mappings leaves the participant in an arbitrary state; since the phase is not
changed it is represented by the state before. -/
def init (p : Participant d) (e : Env d) : Outcome × Participant d :=
  p.require (p.phase ≠ .finalized) <|
  p.require (p.phase ≠ .initialized) <|
  p.require (¬ (p.initRequired = true ∧ p.initFulfilled = false)) <|
  p.require (e.good = true) <|
  (.ok .unit, p.initDone e)

/-- A reinitialization takes place, ParticipantImpl.cpp:428-437: a mesh was reset here or by the partner. -/
def reinits (p : Participant d) (e : Env d) : Bool :=
  p.remeshing && e.atEnd && (!p.locks.checkAll || e.remoteReset)

/-- The work of `advance`, ParticipantImpl.cpp:425-462 -/
def advDone (p : Participant d) (dt : ℚ) (e : Env d) : Participant d :=
  let t := p.view.time + dt
  let p := if p.reinits e then p.setup e else p
  let p := if e.atEnd = true ∨ e.substeps = true then p.store t else p
  let p := p.resetWritten.adopt e
  { p with locks := p.locks.lockAll }

/-- `advance`, ParticipantImpl.cpp:392-466. The event `_solverAdvanceEvent` only exists between
`initialize` and `finalize` and is dereferenced before the phase is checked (403-409). -/
def advance (p : Participant d) (dt : ℚ) (e : Env d) : Outcome × Participant d :=
  if p.phase ≠ .initialized then (.ub, p) else
  p.require (p.view.ongoing = true) <|
  p.require (¬ equals dt 0) <|
  p.require (dt > 0) <|
  p.require (greaterEquals p.view.maxStep dt) <|
  -- the time step has already been added when the locks are checked
  if p.remeshing = true ∧ e.atEnd = false ∧ p.locks.checkAll = false then
    (.error, { p with view := { p.view with time := p.view.time + dt } })
  else
  p.require (e.good = true) <|
  (.ok .unit, p.advDone dt e)

/-- `finalize`, ParticipantImpl.cpp:587-637; possible without `initialize`. -/
def finalize (p : Participant d) : Outcome × Participant d :=
  p.require (p.phase ≠ .finalized) (.ok .unit, { p with phase := .finalized })

/-- `resetMesh`, ParticipantImpl.cpp:775-790. -/
def resetMesh (p : Participant d) (m : String) : Outcome × Participant d :=
  p.require (p.experimental = true) <|
  p.require (p.remeshing = true) <|
  p.require (p.phase = .initialized) <|
  p.require (p.meshCtx m ≠ none) <|
  p.require (p.view.ongoing = true) <|
  p.require (p.view.complete = true) <|
  match p.locks.unlock m with
  | none => (.error, p)
  | some l => (.ok .unit, ({ p with locks := l } : Participant d).setMesh m (Mesh.empty d))

/-- `setMeshVertex`, ParticipantImpl.cpp:792-814 -/
def setMeshVertex (p : Participant d) (m : String) (pos : List ℚ) : Outcome × Participant d :=
  p.modify m fun c =>
    p.require (pos.length = d) <|
    let (x, i) := c.mesh.createVertex { coords := toPt pos }
    (.ok (.ids [i]), (p.setMesh m x).resizeBuffers m x.verts.length false)

/-- `setMeshVertices`, ParticipantImpl.cpp:816-847 -/
def setMeshVertices (p : Participant d) (m : String) (pos : List ℚ) (n : ℕ) : Outcome × Participant d :=
  p.modify m fun c =>
    p.require (pos.length = n * d) <|
    let (x, is) := createVertices c.mesh ((List.range n).map (fun i => toPt (group d pos i)))
    (.ok (.ids is), (p.setMesh m x).resizeBuffers m x.verts.length false)

/-- `PRECICE_REQUIRE_DATA_WRITE` / `PRECICE_REQUIRE_DATA_READ`: the part about the mesh,
ValidationMacros.hpp:60-70. -/
def dataAccess (p : Participant d) (m : String) (k : MeshCtx d → Outcome × Participant d) : Outcome × Participant d :=
  match p.meshCtx m with
  | none => (.error, p)
  | some c => p.require (c.provided = true ∨ c.direct = true) (k c)

/-- `writeValuesIntoDataBuffer`, WriteDataContext.cpp:59-71; `none` is an access outside of the buffer. -/
def writeBuffer (dims : ℕ) (vals : List ℚ) : List ℤ → ℕ → List Col → Option (List Col)
  | [], _, b => some b
  | v :: vs, i, b =>
    if v.toNat < b.length then writeBuffer dims vals vs (i + 1) (b.set v.toNat (group dims vals i)) else none

/-- `writeData`, ParticipantImpl.cpp:1169-1204 -/
def writeData (p : Participant d) (m data : String) (ids : List ℤ) (vals : List ℚ) : Outcome × Participant d :=
  p.require (p.phase ≠ .finalized) <|
  p.require (p.phase = .constructed ∨ (p.phase = .initialized ∧ p.view.ongoing = true)) <|
  p.dataAccess m fun c =>
  match p.writes.find? (fun w => w.mesh = m ∧ w.data = data) with
  | none => (.error, p)
  | some w =>
    if ids = [] ∧ vals = [] then (.ok .unit, p) else
    p.require (ids.length * w.dims = vals.length) <|
    p.require (ids.all (fun i => c.mesh.isValidVertexID i) = true) <|
    match writeBuffer w.dims vals ids 0 w.buffer with
    | none => (.ub, p)
    | some b => (.ok .unit, { p with writes := p.writes.map (fun w =>
        if w.mesh = m ∧ w.data = data then { w with buffer := b } else w) })

/-- The checks of the relative read time, ParticipantImpl.cpp:1214-1218 / 1266-1270. -/
def readable (p : Participant d) (t : ℚ) (k : Outcome × Participant d) : Outcome × Participant d :=
  p.require (p.phase ≠ .constructed) <|
  p.require (p.phase ≠ .finalized) <|
  p.require (smallerEquals t p.view.maxStep) <|
  p.require (t ≥ 0) <|
  p.require (p.view.ongoing = true ∨ equals t 0) k

/-- `readData`, ParticipantImpl.cpp:1206-1255; `readValues`, ReadDataContext.cpp:33-41. -/
def readData (p : Participant d) (m data : String) (ids : List ℤ) (t : ℚ) (n : ℕ) : Outcome × Participant d :=
  p.readable t <|
  p.dataAccess m fun c =>
  match p.reads.find? (fun r => r.mesh = m ∧ r.data = data) with
  | none => (.error, p)
  | some r =>
    p.require (p.locks.check m = some true) <|
    if ids = [] ∧ n = 0 then (.ok (.vals []), p) else
    match r.sample with
    | none => (.error, p)
    | some s =>
      p.require (ids.length * r.dims = n) <|
      p.require (ids.all (fun i => c.mesh.isValidVertexID i) = true) <|
      (.ok (.vals (ids.flatMap (fun i => (s (p.view.time + t)).getD i.toNat []))), p)

/-- `mapAndReadData`, ParticipantImpl.cpp:1257-1323; only the checks, the values are computed by the
mapping. The check of the access region is only made in parallel runs. -/
def mapAndReadData (p : Participant d) (m data : String) (coords : List ℚ) (t : ℚ) (n : ℕ) :
    Outcome × Participant d :=
  p.require (p.experimental = true) <|
  p.readable t <|
  p.dataAccess m fun c =>
  match p.reads.find? (fun r => r.mesh = m ∧ r.data = data) with
  | none => (.error, p)
  | some r =>
    p.require (c.provided = false ∧ c.direct = true) <|
    p.require (c.mesh.verts ≠ []) <|
    p.require (r.jit = true) <|
    if coords = [] ∧ n = 0 then (.ok .unit, p) else
    p.require (coords.length % d = 0 ∧ coords.length / d * r.dims = n) <|
    p.require (r.sample.isSome = true) <|
    (.ok .unit, p)

/-- One API call. -/
def exec (p : Participant d) : Call d → Outcome × Participant d
  | .initialize e => p.init e
  | .advance dt e => p.advance dt e
  | .finalize => p.finalize
  -- 654-660
  | .isCouplingOngoing => p.require (p.phase = .initialized) (.ok (.bool p.view.ongoing), p)
  -- 662-668
  | .isTimeWindowComplete => p.require (p.phase = .initialized) (.ok (.bool p.view.complete), p)
  -- 670-685
  | .getMaxTimeStepSize => p.require (p.phase = .initialized) (.ok (.num p.view.maxStep), p)
  -- 687-696
  | .requiresInitialData => p.require (p.phase = .constructed)
      (.ok (.bool p.initRequired), { p with initFulfilled := p.initFulfilled || p.initRequired })
  -- 639-644
  | .getMeshDimensions m => p.accessor <|
      p.require (p.meshCtx m ≠ none) (.ok (.num d), p)
  -- 720-725
  | .requiresMeshConnectivityFor m => p.accessor <|
      match p.meshCtx m with
      | none => (.error, p)
      | some c => (.ok (.bool c.full), p)
  -- 739-772, without access regions
  | .getMeshVertexSize m => p.accessor <|
      match p.meshCtx m with
      | none => (.error, p)
      | some c => p.require (p.phase = .initialized ∨ c.provided = true) (.ok (.num c.mesh.verts.length), p)
  | .resetMesh m => p.resetMesh m
  | .setMeshVertex m pos => p.setMeshVertex m pos
  | .setMeshVertices m pos n => p.setMeshVertices m pos n
  -- 849-871
  | .setMeshEdge m a b => p.connect m Mesh.createEdge false 2 false [a, b]
  -- 873-905
  | .setMeshEdges m ids => p.connect m Mesh.createEdge false 2 false ids
  -- 907-937
  | .setMeshTriangle m a b c => p.connect m Mesh.createTriangle false 3 true [a, b, c]
  -- 939-973
  | .setMeshTriangles m ids => p.connect m Mesh.createTriangle false 3 false ids
  | .setMeshQuad m a b c e => p.quads m [a, b, c, e]
  | .setMeshQuads m ids => p.quads m ids
  -- 1094-1125
  | .setMeshTetrahedron m a b c e => p.connect m Mesh.createTetrahedron true 4 false [a, b, c, e]
  -- 1127-1167
  | .setMeshTetrahedra m ids => p.connect m Mesh.createTetrahedron true 4 false ids
  | .writeData m data ids vals => p.writeData m data ids vals
  | .readData m data ids t n => p.readData m data ids t n
  | .mapAndReadData m data coords t n => p.mapAndReadData m data coords t n

/-- The outcomes of a sequence of calls and the final state. After an error the participant may be used
further (the C++ API throws). After undefined behaviour nothing is known: the run ends. -/
def run (p : Participant d) : List (Call d) → List (Call d × Outcome) × Participant d
  | [] => ([], p)
  | c :: cs =>
    let (o, p') := p.exec c
    if o = .ub then ([(c, o)], p')
    else
      let (os, p'') := p'.run cs
      ((c, o) :: os, p'')

end Participant
end Verif.Api
