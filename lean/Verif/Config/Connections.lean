import Verif.Config.Scheme
import Mathlib.Data.Int.Notation
import Mathlib.Tactic.Common

/-!
# Configuration of the communication between participants (C125)

Model of `/repo/src/m2n/config/M2NConfiguration.cpp` and of the parts of `/repo/src/precice/config/Configuration.cpp` that assign communications to participants and
meshes. Names are elements of a type with decidable equality. preCICE is compiled with MPI. The exception `std::runtime_error` counts as an error message.
-/

set_option autoImplicit false

namespace Verif.Config.Conn

open Scheme (Err)

variable {ν : Type} [DecidableEq ν]

/-- A tag `<m2n:... acceptor=... connector=... />`. The port is only given for sockets. -/
structure M2N (ν : Type) where
  acceptor : ν
  connector : ν
  gatherScatter : Bool
  twoLevel : Bool
  port : Option ℤ
deriving DecidableEq

/-- The condition in `checkDuplicates`, `getM2N` and `isM2NConfigured`, M2NConfiguration.cpp:112-130, 207-219. -/
def M2N.links (m : M2N ν) (a b : ν) : Bool := (m.acceptor == a && m.connector == b) || (m.connector == a && m.acceptor == b)

/-- `xmlTagCallback`, M2NConfiguration.cpp:132-205. `size` is the number of ranks of the participant that reads the configuration. -/
def addM2N (size : ℕ) (ms : List (M2N ν)) (t : M2N ν) : Except Err (List (M2N ν)) :=
  if ms.any fun m => m.links t.acceptor t.connector then .error .check
  else if t.gatherScatter && t.twoLevel then .error .check
  else if size == 1 && t.twoLevel then .error .check
  else if (t.port.map fun p => decide (65535 < p) || decide (p < 0)).getD false then .error .check
  else .ok (ms ++ [t])

def addM2Ns (size : ℕ) : List (M2N ν) → List (M2N ν) → Except Err (List (M2N ν))
  | ms, [] => .ok ms
  | ms, t :: l => (addM2N size ms t).bind fun ms => addM2Ns size ms l

/-- `Mapping::MeshRequirement`, Mapping.hpp:46-52 -/
inductive Requirement where
  | undefined
  | vertex
  | full
deriving DecidableEq

def Requirement.level : Requirement → ℕ
  | .undefined => 0
  | .vertex => 1
  | .full => 2

/-- A participant with its provided meshes, its received meshes with the participant they come from, and the requirements on its meshes which follow from its mappings
and actions (ParticipantState.cpp:41, 513-523). -/
structure Participant (ν : Type) where
  name : ν
  provided : List ν
  received : List (ν × ν)
  own : ν → Requirement

/-- `hasParticipant`, ParticipantConfiguration.cpp:381-384 -/
def isParticipant (ps : List (Participant ν)) (n : ν) : Bool := ps.any fun p => p.name == n

/-- All tags and the check at the end of the configuration, Configuration.cpp:113-123. -/
def configure (size : ℕ) (ps : List (Participant ν)) (ts : List (M2N ν)) : Except Err (List (M2N ν)) :=
  (addM2Ns size [] ts).bind fun ms =>
    if ms.all fun m => isParticipant ps m.acceptor && isParticipant ps m.connector then .ok ms else .error .check

/-- `BoundM2N` -/
structure Bound (ν : Type) where
  m2n : M2N ν
  remote : ν
  isRequesting : Bool
deriving DecidableEq

/-- One communication of `getBoundM2NsFor`, Configuration.cpp:135-166: the loop over the participants with the name of the partner. An entry for the partner must not
exist. -/
def bindTo (m : M2N ν) (partner : ν) (requesting : Bool) : List (Participant ν) → List (Bound ν) → Except Err (List (Bound ν))
  | [], r => .ok r
  | p :: ps, r =>
    if p.name = partner then
      if r.any fun b => b.remote == partner then .error .assert
      else bindTo m partner requesting ps (r ++ [⟨m, partner, requesting⟩])
    else bindTo m partner requesting ps r

/-- `getBoundM2NsFor`, Configuration.cpp:131-168. The map is a list, the order of its entries is not modelled. -/
def boundFor (ps : List (Participant ν)) (name : ν) : List (M2N ν) → List (Bound ν) → Except Err (List (Bound ν))
  | [], r => .ok r
  | m :: ms, r =>
    if m.acceptor ≠ name ∧ m.connector ≠ name then boundFor ps name ms r
    else if m.acceptor = name then (bindTo m m.connector true ps r).bind (boundFor ps name ms)
    else (bindTo m m.acceptor false ps r).bind (boundFor ps name ms)

/-- `getM2N`, M2NConfiguration.cpp:112-121 -/
def getM2N (ms : List (M2N ν)) (a b : ν) : Except Err (M2N ν) :=
  match ms.find? fun m => m.links a b with
  | some m => .ok m
  | none => .error .check

/-- The loop over the received meshes of one participant, Configuration.cpp:183-195. -/
def receiverMeshes (ms : List (M2N ν)) (name mesh : ν) (r : Participant ν) :
    List (ν × ν) → Requirement × List (M2N ν) → Except Err (Requirement × List (M2N ν))
  | [], s => .ok s
  | (m, src) :: l, (q, k) =>
    if src = name ∧ m = mesh then
      let q := if q.level < (r.own m).level then r.own m else q
      (getM2N ms r.name name).bind fun x => receiverMeshes ms name mesh r l (q, k ++ [x])
    else receiverMeshes ms name mesh r l (q, k)

/-- The loop over the participants, Configuration.cpp:182-196. -/
def receivers (ms : List (M2N ν)) (name mesh : ν) : List (Participant ν) → Requirement × List (M2N ν) → Except Err (Requirement × List (M2N ν))
  | [], s => .ok s
  | r :: ps, s => (receiverMeshes ms name mesh r r.received s).bind (receivers ms name mesh ps)

/-- The mesh contexts of a participant: provided meshes with the requirement and the communications by which they are sent, received meshes with the communication. -/
structure Meshes (ν : Type) where
  provided : List (ν × Requirement × List (M2N ν))
  received : List (ν × M2N ν)

/-- `configurePartitionsFor`, Configuration.cpp:170-222. -/
def meshesFor (ms : List (M2N ν)) (ps : List (Participant ν)) (p : Participant ν) : Except Err (Meshes ν) := do
  let pr ← p.provided.mapM fun m => (receivers ms p.name m ps (p.own m, [])).map fun s => (m, s)
  let rc ← p.received.mapM fun e => (getM2N ms p.name e.2).map fun x => (e.1, x)
  .ok ⟨pr, rc⟩

end Verif.Config.Conn
