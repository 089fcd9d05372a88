import Verif.Config.Method

/-!
# The configuration of data and meshes (C129)

Model of `/repo/src/mesh/config/DataConfiguration.cpp` and `/repo/src/mesh/config/MeshConfiguration.cpp`: the tags
`data:scalar`, `data:vector` and `mesh` with the subtags `use-data`. Types, options and defaults of attributes are
checked and filled in before (C107).
-/

set_option autoImplicit false

namespace Verif.Config.Dataset

open Verif.Config.Scheme (Err)
open Verif.Config.MapMethod (Dbl)

/-- `a <= b` -/
def le : Dbl → Dbl → Bool
  | .nan, _ => false
  | _, .nan => false
  | .ninf, _ => true
  | _, .pinf => true
  | .fin a, .fin b => decide (a ≤ b)
  | _, _ => false

/-- a bound, missing unless it is finite: DataConfiguration.cpp:113-114, 129-134 -/
def bound : Dbl → Option ℚ
  | .fin q => some q
  | _ => none

/-- `Data::typeName` -/
inductive Kind where
  | scalar | vector
deriving DecidableEq

/-- A tag `data:scalar` or `data:vector`, DataConfiguration.cpp:10-71. A scalar has only the first bounds. -/
structure DataTag where
  name : String
  kind : Kind
  degree : ℤ
  lower : Fin 3 → Dbl
  upper : Fin 3 → Dbl

/-- `ConfiguredData`, DataConfiguration.hpp:16-30 -/
structure Configured where
  name : String
  kind : Kind
  degree : ℤ
  lower : List (Option ℚ)
  upper : List (Option ℚ)

/-- `lowerBoundVec` and `upperBoundVec`, DataConfiguration.cpp:110-114, 126-134 -/
def bounds (k : Kind) (b : Fin 3 → Dbl) : List (Option ℚ) :=
  match k with
  | .scalar => [bound (b 0)]
  | .vector => [bound (b 0), bound (b 1), bound (b 2)]

/-- the check of one component of a vector, DataConfiguration.cpp:136-150 -/
def componentOk (l u : Option ℚ) : Bool :=
  match l, u with
  | some l, some u => decide (l ≤ u)
  | _, _ => true

/-- the checks of the bounds, DataConfiguration.cpp:116-118, 136-150 -/
def boundsOk (t : DataTag) : Bool :=
  match t.kind with
  | .scalar => le (t.lower 0) (t.upper 0)
  | .vector => componentOk (bound (t.lower 0)) (bound (t.upper 0)) && (componentOk (bound (t.lower 1)) (bound (t.upper 1)) && componentOk (bound (t.lower 2)) (bound (t.upper 2)))

/-- `addData`, DataConfiguration.cpp:166-180 -/
def addData (ds : List Configured) (d : Configured) : Except Err (List Configured) :=
  if ds.any fun e => e.name == d.name then .error .check else .ok (ds ++ [d])

/-- `xmlTagCallback` of the data, DataConfiguration.cpp:85-158 -/
def dataTag (ds : List Configured) (t : DataTag) : Except Err (List Configured) :=
  if t.degree < 0 then .error .check
  else if boundsOk t then addData ds ⟨t.name, t.kind, t.degree, bounds t.kind t.lower, bounds t.kind t.upper⟩
  else .error .check

/-- `Data`, mesh/Data.cpp:30-50 -/
structure Data where
  name : String
  id : ℕ
  dim : ℕ
  spatial : ℕ
  degree : ℤ
  lower : List (Option ℚ)
  upper : List (Option ℚ)

/-- `Mesh`, mesh/Mesh.cpp:26-40 -/
structure Mesh where
  name : String
  dims : ℕ
  id : ℕ
  data : List Data

/-- The state of both configurations; the numbers are those of `_meshIdManager` and `_dataIDManager`, which count (C86). -/
structure State where
  data : List Configured
  dims : List (String × ℕ)
  meshes : List Mesh
  nextMesh : ℕ
  nextData : ℕ

def init : State := ⟨[], [], [], 0, 0⟩

/-- `getDataDimensions`, MeshConfiguration.cpp:175-185; `at` throws for unknown names. -/
def dataDimensions (dims : List (String × ℕ)) (mesh : String) : Kind → Option ℕ
  | .vector => dims.lookup mesh
  | .scalar => some 1

/-- `std::vector::resize` -/
def resize (l : List (Option ℚ)) (n : ℕ) : List (Option ℚ) := l.take n ++ List.replicate (n - l.length) none

/-- `insertMeshToMeshDimensionsMap`, MeshConfiguration.cpp:167-173, without the assertion: `std::map::insert` keeps old entries. -/
def insertDims (dims : List (String × ℕ)) (name : String) (d : ℕ) : List (String × ℕ) :=
  if (dims.lookup name).isSome then dims else dims ++ [(name, d)]

/-- `xmlTagCallback` for `mesh`, MeshConfiguration.cpp:65-70. `debug` are builds with assertions. -/
def meshTag (debug : Bool) (s : State) (name : String) (d : ℕ) : Except Err State :=
  if debug && ((s.dims.lookup name).isSome || name == "") then .error .assert
  else .ok { s with dims := insertDims s.dims name d, meshes := s.meshes ++ [⟨name, d, s.nextMesh, []⟩], nextMesh := s.nextMesh + 1 }

/-- `createData`, mesh/Mesh.cpp:173-192 -/
def createData (m : Mesh) (name : String) (dim id : ℕ) (degree : ℤ) (lower upper : List (Option ℚ)) : Except Err Mesh :=
  if m.data.any fun d => d.name == name then .error .check
  else .ok { m with data := m.data ++ [⟨name, id, dim, m.dims, degree, lower, upper⟩] }

/-- `xmlTagCallback` for `use-data`, MeshConfiguration.cpp:71-90 -/
def useTag (s : State) (name : String) : Except Err State :=
  match s.meshes.getLast? with
  | none => .error .undef
  | some m =>
    match s.data.find? fun c => c.name == name with
    | none => .error .check
    | some c =>
      match dataDimensions s.dims m.name c.kind with
      | none => .error .undef
      | some dim =>
        match createData m c.name dim s.nextData c.degree (resize c.lower dim) (resize c.upper dim) with
        | .error e => .error e
        | .ok m => .ok { s with meshes := s.meshes.dropLast ++ [m], nextData := s.nextData + 1 }

/-- The tags of a configuration in the order of the document -/
inductive Item where
  | data (t : DataTag)
  | mesh (name : String) (dims : ℕ) (uses : List String)

/-- one tag with its subtags, xml/ConfigParser.cpp:289-297 -/
def item (debug : Bool) (s : State) : Item → Except Err State
  | .data t => (dataTag s.data t).map fun ds => { s with data := ds }
  | .mesh name d uses => (meshTag debug s name d).bind fun s => uses.foldlM useTag s

def configure (debug : Bool) (doc : List Item) : Except Err State := doc.foldlM (item debug) init

/-- `getMesh`, MeshConfiguration.cpp:143-152 -/
def State.getMesh (s : State) (name : String) : Option Mesh := s.meshes.find? fun m => m.name == name

/-- `Mesh::data`, mesh/Mesh.cpp:233-240 -/
def Mesh.getData (m : Mesh) (name : String) : Option Data := m.data.find? fun d => d.name == name

end Verif.Config.Dataset
