import Verif.Bindings.Model

/-!
# What the bindings are to do (C131)

Every function of the bindings stands for one function of the C++ API. The arrays have the sizes in the documentation
(`/repo/extras/bindings/c/include/precice/preciceC.h`).
-/

set_option autoImplicit false

namespace Verif.Bindings

/-- The function of the C++ API a function of the bindings stands for: the arrays are the same, their number of elements
is part of them. -/
def meant {ν : Type} : Call ν → Request ν
  | .initialize => .initialize
  | .advance dt => .advance dt
  | .finalize => .finalize
  | .getMeshDimensions mesh => .getMeshDimensions mesh
  | .getDataDimensions mesh data => .getDataDimensions mesh data
  | .isCouplingOngoing => .isCouplingOngoing
  | .isTimeWindowComplete => .isTimeWindowComplete
  | .getMaxTimeStepSize => .getMaxTimeStepSize
  | .requiresInitialData => .requiresInitialData
  | .requiresWritingCheckpoint => .requiresWritingCheckpoint
  | .requiresReadingCheckpoint => .requiresReadingCheckpoint
  | .requiresMeshConnectivityFor mesh => .requiresMeshConnectivityFor mesh
  | .resetMesh mesh => .resetMesh mesh
  | .setMeshVertex mesh position => .setMeshVertex mesh position
  | .setMeshVertices mesh _ positions ids => .setMeshVertices mesh positions ids
  | .getMeshVertexSize mesh => .getMeshVertexSize mesh
  | .setMeshEdge mesh a b => .setMeshEdge mesh a b
  | .setMeshEdges mesh _ vertices => .setMeshEdges mesh vertices
  | .setMeshTriangle mesh a b c => .setMeshTriangle mesh a b c
  | .setMeshTriangles mesh _ vertices => .setMeshTriangles mesh vertices
  | .setMeshQuad mesh a b c d => .setMeshQuad mesh a b c d
  | .setMeshQuads mesh _ vertices => .setMeshQuads mesh vertices
  | .setMeshTetrahedron mesh a b c d => .setMeshTetrahedron mesh a b c d
  | .setMeshTetrahedra mesh _ vertices => .setMeshTetrahedra mesh vertices
  | .writeData mesh data _ ids values => .writeData mesh data ids values
  | .readData mesh data _ ids time values => .readData mesh data ids time values
  | .writeAndMapData mesh data _ coordinates values => .writeAndMapData mesh data coordinates values
  | .mapAndReadData mesh data _ coordinates time values => .mapAndReadData mesh data coordinates time values
  | .requiresGradientDataFor mesh data => .requiresGradientDataFor mesh data
  | .writeGradientData mesh data _ ids gradients => .writeGradientData mesh data ids gradients
  | .setMeshAccessRegion mesh box => .setMeshAccessRegion mesh box
  | .getMeshVertexIDsAndCoordinates mesh _ ids coordinates => .getMeshVertexIDsAndCoordinates mesh ids coordinates
  | .startProfilingSection name => .startProfilingSection name
  | .stopLastProfilingSection => .stopLastProfilingSection

/-- the names of a call -/
def Call.names {ν : Type} : Call ν → List ν
  | .getMeshDimensions mesh => [mesh]
  | .getDataDimensions mesh data => [mesh, data]
  | .requiresMeshConnectivityFor mesh => [mesh]
  | .resetMesh mesh => [mesh]
  | .setMeshVertex mesh _ => [mesh]
  | .setMeshVertices mesh _ _ _ => [mesh]
  | .getMeshVertexSize mesh => [mesh]
  | .setMeshEdge mesh _ _ => [mesh]
  | .setMeshEdges mesh _ _ => [mesh]
  | .setMeshTriangle mesh _ _ _ => [mesh]
  | .setMeshTriangles mesh _ _ => [mesh]
  | .setMeshQuad mesh _ _ _ _ => [mesh]
  | .setMeshQuads mesh _ _ => [mesh]
  | .setMeshTetrahedron mesh _ _ _ _ => [mesh]
  | .setMeshTetrahedra mesh _ _ => [mesh]
  | .writeData mesh data _ _ _ => [mesh, data]
  | .readData mesh data _ _ _ _ => [mesh, data]
  | .writeAndMapData mesh data _ _ _ => [mesh, data]
  | .mapAndReadData mesh data _ _ _ _ => [mesh, data]
  | .requiresGradientDataFor mesh data => [mesh, data]
  | .writeGradientData mesh data _ _ _ => [mesh, data]
  | .setMeshAccessRegion mesh _ => [mesh]
  | .getMeshVertexIDsAndCoordinates mesh _ _ _ => [mesh]
  | .startProfilingSection name => [name]
  | _ => []

/-- a call with other names -/
def Call.map {ν μ : Type} (f : ν → μ) : Call ν → Call μ
  | .initialize => .initialize
  | .advance dt => .advance dt
  | .finalize => .finalize
  | .getMeshDimensions mesh => .getMeshDimensions (f mesh)
  | .getDataDimensions mesh data => .getDataDimensions (f mesh) (f data)
  | .isCouplingOngoing => .isCouplingOngoing
  | .isTimeWindowComplete => .isTimeWindowComplete
  | .getMaxTimeStepSize => .getMaxTimeStepSize
  | .requiresInitialData => .requiresInitialData
  | .requiresWritingCheckpoint => .requiresWritingCheckpoint
  | .requiresReadingCheckpoint => .requiresReadingCheckpoint
  | .requiresMeshConnectivityFor mesh => .requiresMeshConnectivityFor (f mesh)
  | .resetMesh mesh => .resetMesh (f mesh)
  | .setMeshVertex mesh position => .setMeshVertex (f mesh) position
  | .setMeshVertices mesh size positions ids => .setMeshVertices (f mesh) size positions ids
  | .getMeshVertexSize mesh => .getMeshVertexSize (f mesh)
  | .setMeshEdge mesh a b => .setMeshEdge (f mesh) a b
  | .setMeshEdges mesh size vertices => .setMeshEdges (f mesh) size vertices
  | .setMeshTriangle mesh a b c => .setMeshTriangle (f mesh) a b c
  | .setMeshTriangles mesh size vertices => .setMeshTriangles (f mesh) size vertices
  | .setMeshQuad mesh a b c d => .setMeshQuad (f mesh) a b c d
  | .setMeshQuads mesh size vertices => .setMeshQuads (f mesh) size vertices
  | .setMeshTetrahedron mesh a b c d => .setMeshTetrahedron (f mesh) a b c d
  | .setMeshTetrahedra mesh size vertices => .setMeshTetrahedra (f mesh) size vertices
  | .writeData mesh data size ids values => .writeData (f mesh) (f data) size ids values
  | .readData mesh data size ids time values => .readData (f mesh) (f data) size ids time values
  | .writeAndMapData mesh data size coordinates values => .writeAndMapData (f mesh) (f data) size coordinates values
  | .mapAndReadData mesh data size coordinates time values => .mapAndReadData (f mesh) (f data) size coordinates time values
  | .requiresGradientDataFor mesh data => .requiresGradientDataFor (f mesh) (f data)
  | .writeGradientData mesh data size ids gradients => .writeGradientData (f mesh) (f data) size ids gradients
  | .setMeshAccessRegion mesh box => .setMeshAccessRegion (f mesh) box
  | .getMeshVertexIDsAndCoordinates mesh size ids coordinates => .getMeshVertexIDsAndCoordinates (f mesh) size ids coordinates
  | .startProfilingSection name => .startProfilingSection (f name)
  | .stopLastProfilingSection => .stopLastProfilingSection

/-- the functions whose result is a truth value -/
def isFlag {ν : Type} : Request ν → Bool
  | .isCouplingOngoing | .isTimeWindowComplete | .requiresInitialData | .requiresWritingCheckpoint
  | .requiresReadingCheckpoint | .requiresMeshConnectivityFor _ | .requiresGradientDataFor _ _ => true
  | _ => false

/-- The result as C and Fortran have it: truth values are 1 and 0. -/
def plain : Response → Response
  | .bool true => .int 1
  | .bool false => .int 0
  | x => x

/-- The dimensions of the meshes and of the data, for those that exist -/
structure Dims where
  mesh : String → Option ℕ
  data : String → String → Option ℕ

/-- What is used of the API: the dimensions are those of the configuration, at most three (a data has the dimensions of
its mesh or 1), asking for them changes nothing, and the questions, and only they, are answered with truth values. -/
structure Sound {σ : Type} (A : Api σ) (D : Dims) : Prop where
  mesh : ∀ s m, A.call s (.getMeshDimensions m) = (D.mesh m).map fun d => (.int d, s)
  data : ∀ s m d, A.call s (.getDataDimensions m d) = (D.data m d).map fun k => (.int k, s)
  meshSmall : ∀ m k, D.mesh m = some k → k ≤ 3
  dataSmall : ∀ m d k, D.data m d = some k → k ≤ 3
  flag : ∀ s r x s', A.call s r = some (x, s') → (isFlag r = true ↔ ∃ b, x = .bool b)

/-- The arrays of a call have the documented numbers of elements, and the mesh and the data exist where the number depends
on them. -/
def Documented (D : Dims) : Call String → Prop
  | .setMeshVertex m p => ∃ d, D.mesh m = some d ∧ p.length = d
  | .setMeshVertices m n p ids => ∃ d, D.mesh m = some d ∧ (p.length : ℤ) = n * d ∧ (ids : ℤ) = n
  | .setMeshEdges _ n v => (v.length : ℤ) = n * 2
  | .setMeshTriangles _ n v => (v.length : ℤ) = n * 3
  | .setMeshQuads _ n v => (v.length : ℤ) = n * 4
  | .setMeshTetrahedra _ n v => (v.length : ℤ) = n * 4
  | .writeData m d n ids v => ∃ k, D.data m d = some k ∧ (ids.length : ℤ) = n ∧ (v.length : ℤ) = n * k
  | .readData m d n ids _ v => ∃ k, D.data m d = some k ∧ (ids.length : ℤ) = n ∧ (v : ℤ) = n * k
  | .writeAndMapData m d n x v =>
    ∃ c k, D.mesh m = some c ∧ D.data m d = some k ∧ (x.length : ℤ) = n * c ∧ (v.length : ℤ) = n * k
  | .mapAndReadData m d n x _ v =>
    ∃ c k, D.mesh m = some c ∧ D.data m d = some k ∧ (x.length : ℤ) = n * c ∧ (v : ℤ) = n * k
  | .writeGradientData m d n ids g =>
    ∃ c k, D.mesh m = some c ∧ D.data m d = some k ∧ (ids.length : ℤ) = n ∧ (g.length : ℤ) = n * (c * k)
  | .setMeshAccessRegion m b => ∃ d, D.mesh m = some d ∧ b.length = 2 * d
  | .getMeshVertexIDsAndCoordinates m n ids x => ∃ d, D.mesh m = some d ∧ (ids : ℤ) = n ∧ (x : ℤ) = n * d
  | _ => True

/-- The number of elements of the largest array whose size the bindings compute in the type `int`; the numbers of edges,
triangles, quads and tetrahedra are themselves numbers of type `int`. -/
def largest : Call String → ℤ
  | .setMeshVertices _ _ p ids => max p.length ids
  | .setMeshEdges _ n _ | .setMeshTriangles _ n _ | .setMeshQuads _ n _ | .setMeshTetrahedra _ n _ => n
  | .writeData _ _ _ ids v => max ids.length v.length
  | .readData _ _ _ ids _ v => max ids.length v
  | .writeAndMapData _ _ _ x v => max x.length v.length
  | .mapAndReadData _ _ _ x _ v => max x.length v
  | .writeGradientData _ _ _ ids g => max ids.length g.length
  | .getMeshVertexIDsAndCoordinates _ _ ids x => max ids x
  | _ => 0

/-- What a call is to do with a participant in state `s`: what the C++ API does, an exception ends the program, and after
`finalize` there is no participant. -/
def expected {σ : Type} (A : Api σ) (c : Call String) (s : σ) : Except Stop (Response × Option σ) :=
  match A.call s (meant c) with
  | none => .error .abort
  | some (x, s') => .ok (plain x, if c = .finalize then none else some s')

/-- A sequence of calls with a binding: the results and how it ended -/
def runBinding {σ ν : Type} (call : Call ν → M σ Response) : List (Call ν) → Option σ →
    List Response × Except Stop (Option σ)
  | [], s => ([], .ok s)
  | c :: cs, s =>
    match call c s with
    | .error e => ([], .error e)
    | .ok (x, s') => let r := runBinding call cs s'; (x :: r.1, r.2)

/-- A sequence of calls with the C++ API: the results and the last state, or none after an exception -/
def runApi {σ : Type} (A : Api σ) : List (Request String) → σ → List Response × Option σ
  | [], s => ([], some s)
  | r :: rs, s =>
    match A.call s r with
    | none => ([], none)
    | some (x, s') => let q := runApi A rs s'; (x :: q.1, q.2)

/-- How a program with a binding ends, given how it ends with the C++ API; `gone` if its last call is `finalize` -/
def ended {σ : Type} (gone : Bool) : Option σ → Except Stop (Option σ)
  | none => .error .abort
  | some s => .ok (if gone then none else some s)

/-- a blank or the character 0 -/
def isBlank (c : Char) : Bool := c = ' ' || c = Char.ofNat 0

/-- `f` is the name `s` as Fortran passes it: filled up with blanks. -/
def Padded (f : List Char) (s : String) : Prop :=
  ∃ blanks : List Char, f = s.toList ++ blanks ∧ (∀ c ∈ blanks, isBlank c = true) ∧
    ∃ c, s.toList.getLast? = some c ∧ isBlank c = false

/-- A call from Fortran and the same call from C -/
def PaddedCall (f : Call (List Char)) (c : Call String) : Prop :=
  ∃ name : List Char → String, c = f.map name ∧ ∀ l ∈ f.names, Padded l (name l)

/-- The functions that do not need a participant to exist, according to the C binding -/
def unchecked {ν : Type} : Call ν → Bool
  | .getMaxTimeStepSize | .setMeshAccessRegion _ _ | .getMeshVertexIDsAndCoordinates _ _ _ _
  | .startProfilingSection _ | .stopLastProfilingSection => true
  | _ => false

end Verif.Bindings
