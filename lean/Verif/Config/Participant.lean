import Mathlib.Data.Rat.Defs
import Mathlib.Algebra.Order.Ring.Rat
import Verif.Config.Scheme

/-!
# Participants from the configuration (C119)

Model of `/repo/src/precice/config/ParticipantConfiguration.cpp`, of the mappings in
`/repo/src/mapping/config/MappingConfiguration.cpp`, and of the functions of `ParticipantState`,
`DataContext`, `ReadDataContext` and `WriteDataContext` they call. `Err` is that of C109.

Names of meshes, data and participants are elements of a type `ν`; an empty name is `none`. The names
of meshes are unique (asserted by the code, MeshConfiguration.cpp:161), so that a name stands for the
ID of a mesh, and a pair of names for a data. Left out: exporters, watch points, actions and
communication, the subtags of mappings (C98), and the values of the attributes for multiscale mappings.
-/

set_option autoImplicit false

namespace Verif.Config.Part

open Verif.Config.Scheme (Err)

variable {ν : Type} [DecidableEq ν]

/-- `Mapping::Constraint` -/
inductive Constraint where
  | conservative | consistent | scaledSurface | scaledVolume
deriving DecidableEq

/-- The names of the tags `mapping:…`, MappingConfiguration.hpp. -/
inductive Kind where
  | nearestNeighbor | nearestProjection | linearCell | coarseGraining | gradient | axial | radial
  | rbfIterative | rbfDirect | rbfPum | rbfAlias
deriving DecidableEq

/-- A mesh in the configuration: its dimensions and the names of its data. -/
structure Mesh (ν : Type) where
  dim : ℕ
  data : List ν

/-- A tag `mapping`, and the `ConfiguredMapping` made of it. `none` is the just-in-time mesh, which
has a name of its own, no data and the ID -1 (MeshConfiguration.cpp:104-107). -/
structure Conf (ν : Type) where
  write : Bool
  src : Option ν
  dst : Option ν
  constraint : Constraint
  kind : Kind
deriving DecidableEq

/-- What is known when a participant is configured: the meshes, its name, whether it is the one that
runs and whether that one runs in parallel, and the global options. -/
structure Setup (ν : Type) where
  mesh : ν → Option (Mesh ν)
  name : ν
  running : Bool
  size : ℕ
  experimental : Bool
  remeshing : Bool

/-- The tags in a participant. -/
inductive Tag (ν : Type) where
  | provide (mesh : ν)
  | receive (mesh : ν) (src : Option ν) (safety : ℚ) (access : Bool)
  | write (data mesh : ν)
  | read (data mesh : ν)
  | mapping (c : Conf ν)

/-- `ParticipantState` and the mappings of `MappingConfiguration`. Data are pairs of mesh and name. -/
structure State (ν : Type) where
  provided : List ν
  /-- with `allowDirectAccess` -/
  received : List (ν × Bool)
  writes : List (ν × ν)
  reads : List (ν × ν)
  maps : List (Conf ν)

def State.empty : State ν := ⟨[], [], [], [], []⟩

/-- `ParticipantState::isMeshProvided`, ParticipantState.cpp:223-227. -/
def State.isProvided (s : State ν) (m : ν) : Bool := s.provided.any (· = m)

/-- `isMeshReceived`, ParticipantState.cpp:229-233. -/
def State.isReceived (s : State ν) (m : ν) : Bool := s.received.any (·.1 = m)

/-- `_meshContexts.count(mesh)`, as in `checkDuplicatedUse`, ParticipantState.cpp:444-450. -/
def State.isUsed (s : State ν) (m : ν) : Bool := s.isProvided m || s.isReceived m

/-- `hasDataName` of a mesh; the just-in-time mesh has no data. -/
def Setup.dataOf (k : Setup ν) : Option ν → List ν
  | none => []
  | some m => ((k.mesh m).map Mesh.data).getD []

/-- The checks of `createMapping` for the constraint, MappingConfiguration.cpp:683-757. -/
def Kind.refuses (t : Kind) (c : Constraint) : Bool :=
  (t = .gradient || t = .axial || t = .radial) && c = .conservative

/-- The checks of the callback for a mapping up to `createMapping` and of `createMapping`,
MappingConfiguration.cpp:425-795. The exceptions in 464-470, which look at the size of the running
participant, whichever participant the mapping belongs to, count as checks. -/
def checkMapping (k : Setup ν) (c : Conf ν) : Except Err Unit :=
  if c.dst = none ∧ c.src = none then .error .check
  else if c.dst = none ∧ ¬ (c.write = false ∧ c.constraint = .consistent) then .error .check
  else if c.src = none ∧ ¬ (c.write = true ∧ c.constraint = .conservative) then .error .check
  else if (c.kind = .axial ∨ c.kind = .radial ∨ c.kind = .coarseGraining) ∧ k.experimental = false then
    .error .check
  else if (c.kind = .axial ∨ c.kind = .radial) ∧ 1 < k.size then .error .check
  else
    match c.src.map k.mesh, c.dst.map k.mesh with
    | some none, _ => .error .check
    | _, some none => .error .check
    | none, none => .error .assert
    | none, some (some _) | some (some _), none =>
      if c.kind = .nearestNeighbor ∨ c.kind = .rbfPum ∨ c.kind = .rbfAlias ∨ c.kind = .coarseGraining then
        if c.kind.refuses c.constraint then .error .check else .ok ()
      else .error .check
    | some (some a), some (some b) =>
      if a.dim ≠ b.dim then .error .check
      else if c.kind.refuses c.constraint then .error .check else .ok ()

/-- `MappingConfiguration::checkDuplicates`, MappingConfiguration.cpp:797-818. -/
def checkDuplicates (c : Conf ν) (l : List (Conf ν)) : Except Err Unit :=
  if l.any fun x => decide (c.dst = x.dst ∧ c.src = x.src) then .error .check
  else if l.any fun x => decide (c.dst = x.dst ∧ (c.write = true ∧ x.write = true) ∧ (c.src = none ∨ x.src = none)) then
    .error .check
  else .ok ()

/-- `ParticipantState::checkDuplicatedData`, ParticipantState.cpp:452-458. -/
def State.knowsData (s : State ν) (d : ν × ν) : Bool := s.writes.any (· = d) || s.reads.any (· = d)

/-- `ParticipantConfiguration::xmlTagCallback` (ParticipantConfiguration.cpp:257-345) and
`MappingConfiguration::xmlTagCallback`. -/
def step (k : Setup ν) (s : State ν) : Tag ν → Except Err (State ν)
  | .provide m =>
    if k.mesh m = none then .error .check
    else if s.isUsed m then .error .check
    else .ok { s with provided := s.provided ++ [m] }
  | .receive m src safety access =>
    if k.mesh m = none then .error .check
    else if src = none then .error .check
    else if some k.name = src then .error .check
    else if safety < 0 then .error .check
    else if s.isUsed m then .error .check
    else .ok { s with received := s.received ++ [(m, access)] }
  | .write d m =>
    match k.mesh m with
    | none => .error .check
    | some x =>
      if d ∉ x.data then .error .check
      else if s.knowsData (m, d) then .error .check
      else .ok { s with writes := s.writes ++ [(m, d)] }
  | .read d m =>
    match k.mesh m with
    | none => .error .check
    | some x =>
      if d ∉ x.data then .error .check
      else if s.knowsData (m, d) then .error .check
      else .ok { s with reads := s.reads ++ [(m, d)] }
  | .mapping c =>
    match checkMapping k c with
    | .error e => .error e
    | .ok _ =>
      match checkDuplicates c s.maps with
      | .error e => .error e
      | .ok _ => .ok { s with maps := s.maps ++ [c] }

/-- All tags in the order of the file. -/
def collect (k : Setup ν) : State ν → List (Tag ν) → Except Err (State ν)
  | s, [] => .ok s
  | s, t :: ts =>
    match step k s t with
    | .error e => .error e
    | .ok s => collect k s ts

/-! ## The end of a participant -/

/-- One round of the loop of `checkIllDefinedMappings`, ParticipantConfiguration.cpp:811-842. -/
def conflict (k : Setup ν) (s : State ν) (m c : Conf ν) : Bool :=
  m.dst.isSome && m.dst = c.dst &&
    (k.dataOf m.src).any fun d => (k.dataOf c.src).any fun d' => d = d' &&
      if m.write then s.writes.any (·.2 = d) else s.reads.any (·.2 = d)

/-- `checkIllDefinedMappings`, ParticipantConfiguration.cpp:796-844: whether it reports an error. It
returns at the mapping itself. -/
def illDefined (k : Setup ν) (s : State ν) (m : Conf ν) : List (Conf ν) → Bool
  | [] => false
  | c :: cs =>
    if (m.dst = c.dst ∧ m.dst ≠ none) ∧ (m.src = c.src ∧ m.src ≠ none) then false
    else conflict k s m c || illDefined k s m cs

/-- `isScaledConsistent` -/
def Constraint.scaled : Constraint → Bool
  | .scaledSurface | .scaledVolume => true
  | _ => false

/-- One round of the first loop of `finishParticipantConfiguration`,
ParticipantConfiguration.cpp:429-531. Connectivity requirements and geometric filters are left out. -/
def checkConf (k : Setup ν) (s : State ν) (m : Conf ν) : Except Err Unit :=
  if illDefined k s m s.maps then .error .check
  else if m.write = false ∧ ¬ ((m.src.map s.isReceived).getD false) then .error .check
  else if m.write = false ∧ ¬ ((m.dst.map s.isProvided).getD true) then .error .check
  else if m.write = true ∧ ¬ ((m.src.map s.isProvided).getD true) then .error .check
  else if m.write = true ∧ ¬ ((m.dst.map s.isReceived).getD false) then .error .check
  else if (1 < k.size ∧ k.running = true) ∧ ((m.write = true ∧ m.constraint = .consistent) ∨
      (m.write = false ∧ m.constraint = .conservative)) then .error .check
  else if (1 < k.size ∧ k.running = true) ∧ m.constraint.scaled = true then .error .check
  else if m.constraint.scaled = true ∧ (m.src = none ∨ m.dst = none) then .error .check
  -- `meshContext` asserts that the mesh is used
  else if ¬ ((m.src.map s.isUsed).getD true) ∨ ¬ ((m.dst.map s.isUsed).getD true) then .error .assert
  else .ok ()

def checkConfs (k : Setup ν) (s : State ν) : List (Conf ν) → Except Err Unit
  | [] => .ok ()
  | m :: ms =>
    match checkConf k s m with
    | .error e => .error e
    | .ok _ => checkConfs k s ms

/-- A `MappingContext` of a data context. -/
structure Attached (ν : Type) where
  conf : Conf ν
  fromData : ν × ν
  toData : ν × ν
deriving DecidableEq

/-- `ReadDataContext`, `WriteDataContext`. -/
structure Ctx (ν : Type) where
  mesh : ν
  data : ν
  maps : List (Attached ν)
  jit : Option (Conf ν)
deriving DecidableEq

/-- `addJustInTimeMapping`, DataContext.cpp:83-104. -/
def Ctx.addJit (c : Ctx ν) (m : Conf ν) : Except Err (Ctx ν) :=
  if c.jit ≠ none then .error .assert else .ok { c with jit := some m }

/-- `WriteDataContext::appendMappingConfiguration`, WriteDataContext.cpp:131-140. -/
def Ctx.appendWrite (c : Ctx ν) (m : Conf ν) (dst : ν) : Except Err (Ctx ν) :=
  if dst = c.mesh then .error .assert
  else .ok { c with maps := c.maps ++ [⟨m, (c.mesh, c.data), (dst, c.data)⟩] }

/-- `ReadDataContext::appendMappingConfiguration`, ReadDataContext.cpp:14-26. -/
def Ctx.appendRead (c : Ctx ν) (m : Conf ν) (src : ν) : Except Err (Ctx ν) :=
  if c.maps ≠ [] then .error .assert
  else if src = c.mesh then .error .assert
  else .ok { c with maps := c.maps ++ [⟨m, (src, c.data), (c.mesh, c.data)⟩] }

/-- The body of the inner loop over the write data, ParticipantConfiguration.cpp:541-585, and whether
it sets `dataFound`. -/
def attachWrite (k : Setup ν) (s : State ν) (m : Conf ν) (c : Ctx ν) : Except Err (Ctx ν × Bool) :=
  if m.src = some c.mesh then
    match m.dst with
    | none => .error .assert
    | some dst =>
      if c.data ∈ k.dataOf (some dst) then
        if s.isProvided c.mesh then (c.appendWrite m dst).map (·, true) else .error .check
      else .ok (c, false)
  else if m.src = none then
    if m.dst = some c.mesh then (c.addJit m).map (·, true) else .ok (c, true)
  else .ok (c, false)

/-- The body of the inner loop over the read data, ParticipantConfiguration.cpp:596-630. -/
def attachRead (k : Setup ν) (s : State ν) (m : Conf ν) (c : Ctx ν) : Except Err (Ctx ν × Bool) :=
  if m.dst = some c.mesh then
    match m.src with
    | none => .error .assert
    | some src =>
      if c.data ∈ k.dataOf (some src) then
        if s.isProvided c.mesh then (c.appendRead m src).map (·, true) else .error .check
      else .ok (c, false)
  else if m.dst = none then
    if m.src = some c.mesh then (c.addJit m).map (·, true) else .ok (c, true)
  else .ok (c, false)

/-- The inner loop: the contexts, and `dataFound`. -/
def attachTo (f : Ctx ν → Except Err (Ctx ν × Bool)) : List (Ctx ν) → Except Err (List (Ctx ν) × Bool)
  | [] => .ok ([], false)
  | c :: cs =>
    match f c with
    | .error e => .error e
    | .ok (c, b) =>
      match attachTo f cs with
      | .error e => .error e
      | .ok (cs, b') => .ok (c :: cs, b || b')

/-- The loop over the mappings of one direction. -/
def attachAll (f : Conf ν → Ctx ν → Except Err (Ctx ν × Bool)) : List (Conf ν) → List (Ctx ν) →
    Except Err (List (Ctx ν))
  | [], cs => .ok cs
  | m :: ms, cs =>
    match attachTo (f m) cs with
    | .error e => .error e
    | .ok (cs, b) => if b then attachAll f ms cs else .error .check

/-- The participant when it has been configured. -/
structure Result (ν : Type) where
  provided : List ν
  received : List (ν × Bool)
  writes : List (Ctx ν)
  reads : List (Ctx ν)
deriving DecidableEq

def ctx (d : ν × ν) : Ctx ν := ⟨d.1, d.2, [], none⟩

/-- `isDirectAccessAllowed`, ParticipantState.cpp:235-243. -/
def State.access (s : State ν) (m : ν) : Bool := ((s.received.find? (·.1 = m)).map (·.2)).getD false

/-- `finishParticipantConfiguration`, ParticipantConfiguration.cpp:417-659. The contexts of data are
kept in the order of their tags, not of their names. -/
def finish (k : Setup ν) (s : State ν) : Except Err (Result ν) :=
  match checkConfs k s s.maps with
  | .error e => .error e
  | .ok _ =>
    match attachAll (attachWrite k s) (s.maps.filter (·.write)) (s.writes.map ctx) with
    | .error e => .error e
    | .ok ws =>
      match attachAll (attachRead k s) (s.maps.filter (!·.write)) (s.reads.map ctx) with
      | .error e => .error e
      | .ok rs =>
        if s.writes.any fun d => !(s.isProvided d.1 || !(s.access d.1 && k.remeshing)) then .error .check
        else .ok ⟨s.provided, s.received, ws, rs⟩

/-- A participant with these tags. -/
def configure (k : Setup ν) (ts : List (Tag ν)) : Except Err (Result ν) :=
  match collect k .empty ts with
  | .error e => .error e
  | .ok s => finish k s

end Verif.Config.Part
