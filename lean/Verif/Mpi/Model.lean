import Mathlib.Data.Nat.Notation

/-!
# The MPI and PETSc environments of a process

Who starts and stops MPI and PETSc in a process that uses preCICE, and which communicator a participant works on.
Modelled: `utils::Parallel` (its static state and the stack of communicators), `utils::Petsc`, the parts of the
constructor and of `finalize` of `ParticipantImpl` that use them, and `tooling::checkConfiguration`.

Simplifications: every call of MPI succeeds; what is computed with a communicator is one event `use`; splitting
communicators and the functions only used by the test suite (`splitCommunicator`, `popState`, `resetManagedMPI`) are not
modelled; communicators of `com` and `mapping` that share ownership of a state are destroyed before the participant
releases it (`src/precice/impl/ParticipantImpl.cpp:610-621`), so a state dies when `_currentState` lets it go. A build with MPI and
PETSc is modelled.
-/

set_option autoImplicit false

namespace Verif.Mpi

/-- Communicators: the predefined ones and those made by the application. -/
inductive Comm
  | world
  | self
  | null
  | user (n : ℕ)
  deriving DecidableEq, Repr

/-- Who calls: the application, or preCICE on behalf of a participant (`some i`) or of the tooling (`none`). -/
inductive Who
  | app
  | lib (i : Option ℕ)
  deriving DecidableEq, Repr

/-- Calls of MPI and PETSc. -/
inductive Call
  | init
  | finalize
  | use (c : Comm)
  | free (c : Comm)
  | petscInit (c : Comm)
  | petscFinalize
  deriving DecidableEq, Repr

/-- A call, and whether the environment allowed it at that time. -/
structure Event where
  who : Who
  call : Call
  legal : Bool
  deriving DecidableEq, Repr

/-- The environments of a process: whether MPI has been initialized (`MPI_Initialized`, true forever after) and
finalized, whether PETSc is initialized (`PetscInitialized`), and the calls so far. -/
structure Env where
  initialized : Bool := false
  finalized : Bool := false
  petsc : Bool := false
  trace : List Event := []
  deriving DecidableEq, Repr

/-- MPI may be used. -/
def Env.active (e : Env) : Bool := e.initialized && !e.finalized

/-- The rules of MPI and PETSc: MPI is initialized and finalized at most once, used in between only, and PETSc runs
inside of it. -/
def Env.allows (e : Env) : Call → Bool
  | .init => !e.initialized
  | .finalize => e.active && !e.petsc
  | .use c => e.active && c != .null
  | .free _ => e.active
  | .petscInit _ => e.active && !e.petsc
  | .petscFinalize => e.active && e.petsc

/-- A call and its effect on the environment. -/
def Env.call (e : Env) (w : Who) (c : Call) : Env :=
  let e' := { e with trace := e.trace ++ [⟨w, c, e.allows c⟩] }
  match c with
  | .init => { e' with initialized := true }
  | .finalize => { e' with finalized := true }
  | .petscInit _ => { e' with petsc := true }
  | .petscFinalize => { e' with petsc := false }
  | _ => e'

/-- `Parallel::CommState`, `src/utils/Parallel.hpp:41-49`. The parent is the next element of the stack. -/
structure CommState where
  comm : Comm
  owning : Bool
  deriving DecidableEq, Repr

/-- `Parallel::CommState::fromComm`, `src/utils/Parallel.cpp:112-117`. -/
def CommState.fromComm (c : Comm) : CommState := ⟨c, true⟩

/-- `Parallel::CommState::fromExtern`, `src/utils/Parallel.cpp:119-125`. -/
def CommState.fromExtern (c : Comm) : CommState := ⟨c, false⟩

/-- `Parallel::CommState::world`, `src/utils/Parallel.cpp:89-96`. -/
def CommState.world : CommState := .fromComm .world

/-- `Parallel::InitializationState`, `src/utils/Parallel.hpp:226-232`. -/
inductive Mode
  | uninitialized
  | provided
  | managed
  | unmanaged
  | testing
  deriving DecidableEq, Repr

/-- A process: its environments, the static members of `Parallel` (`src/utils/Parallel.cpp:18-21`; `_currentState` with
its parents is a list, empty for `nullptr`), the static member `weInitialized` of `Petsc` (`src/utils/Petsc.cpp:37`),
and the participants that have been constructed and not finalized. -/
structure Proc where
  env : Env := {}
  cur : List CommState := []
  byPrecice : Bool := false
  mode : Mode := .uninitialized
  weInit : Bool := false
  alive : List ℕ := []
  deriving DecidableEq, Repr

/-- One call of MPI or PETSc. -/
def Proc.call (p : Proc) (w : Who) (c : Call) : Proc := { p with env := p.env.call w c }

/-- The destructor of a state, `src/utils/Parallel.cpp:42-49`. -/
def Proc.destroy (w : Who) (p : Proc) (s : CommState) : Proc :=
  if s.owning && s.comm != .self && s.comm != .null && s.comm != .world then p.call w (.free s.comm) else p

/-- Assigning to `_currentState`: the state and its parents are destroyed. -/
def Proc.assign (p : Proc) (w : Who) (new : List CommState) : Proc :=
  { p.cur.foldl (Proc.destroy w) p with cur := new }

/-- `Parallel::current`, `src/utils/Parallel.cpp:147-154`: sets the state to the world if there is none. -/
def Proc.current (p : Proc) : Proc :=
  match p.cur with
  | [] => { p with cur := [.world] }
  | _ :: _ => p

/-- The communicator of the current state. -/
def Proc.comm (p : Proc) : Comm :=
  match p.cur with
  | [] => .null
  | s :: _ => s.comm

/-- Code that works on the communicator of `Parallel::current()`. -/
def Proc.use (p : Proc) (w : Who) : Proc := p.current.call w (.use p.current.comm)

/-- `Parallel::resetCommState`, `src/utils/Parallel.cpp:156-159`. -/
def Proc.resetCommState (p : Proc) (w : Who) : Proc := p.assign w [.world]

/-- `Parallel::pushState`, `src/utils/Parallel.cpp:167-177`. The output of the debug build, which calls `current()`, is
left out. -/
def Proc.pushState (p : Proc) (s : CommState) : Proc := { p with cur := s :: p.cur }

/-- `Parallel::initializeOrDetectMPI`, `src/utils/Parallel.cpp:190-228`. `none` is a failed assertion, which ends the
process in builds with assertions (`asserts`). -/
def Proc.initializeOrDetect (asserts : Bool) (p : Proc) (w : Who) (userProvided : Option Comm) : Option Proc :=
  if asserts && p.byPrecice then none else
  match userProvided with
  | some c =>
    if asserts && !p.env.initialized then none else
    some { p.pushState (.fromExtern c) with mode := .provided }
  | none =>
    if !p.env.initialized then
      some { (p.call w .init).assign w [.world] with mode := .managed, byPrecice := true }
    else if p.cur.isEmpty then
      some { p with cur := [.world], mode := .unmanaged }
    else
      some { p with mode := .testing }

/-- `Parallel::finalizeOrCleanupMPI`, `src/utils/Parallel.cpp:230-247`. The assertion of line 242 is left out. -/
def Proc.finalizeOrCleanup (p : Proc) (w : Who) : Proc :=
  let p1 := if p.mode = .testing then p.resetCommState w else p.assign w []
  let p2 := if p.mode = .managed then p1.call w .finalize else p1
  { p2 with mode := .uninitialized }

/-- `Parallel::initializeTestingMPI`, `src/utils/Parallel.cpp:249-259`; only called if MPI is not initialized. -/
def Proc.initializeTesting (p : Proc) (w : Who) : Proc := (p.call w .init).assign w [.world]

/-- `Parallel::finalizeTestingMPI`, `src/utils/Parallel.cpp:261-268`. -/
def Proc.finalizeTesting (p : Proc) (w : Who) : Proc := (p.resetCommState w).call w .finalize

/-- `Petsc::initialize`, `src/utils/Petsc.cpp:39-57`. -/
def Proc.petscInit (p : Proc) (w : Who) (c : Comm) : Proc :=
  if p.env.petsc then p else { p.call w (.petscInit c) with weInit := true }

/-- `Petsc::finalize`, `src/utils/Petsc.cpp:59-72`. -/
def Proc.petscFinalize (p : Proc) (w : Who) : Proc :=
  if !p.weInit then p else if p.env.petsc then p.call w .petscFinalize else p

/-- What reading the configuration does: whether it contains a mapping that needs PETSc, and whether it is accepted. -/
structure Config where
  petsc : Bool
  ok : Bool
  deriving DecidableEq, Repr

/-- Reading the configuration, `MappingConfiguration::finishRBFConfiguration`,
`src/mapping/config/MappingConfiguration.cpp:845-848`. -/
def Proc.readConfig (p : Proc) (w : Who) (cfg : Config) : Proc :=
  if cfg.petsc then p.current.petscInit w p.current.comm else p

/-- The arguments of the constructor of a participant. `plausible`: the checks of lines 95-115 of
`src/precice/impl/ParticipantImpl.cpp`, before MPI is touched. -/
structure Args where
  plausible : Bool := true
  comm : Option Comm
  rank : ℕ
  size : ℕ
  cfg : Config
  deriving DecidableEq, Repr

/-- How a call ends: it returns, it throws `precice::Error`, or the process is aborted. -/
inductive Status
  | ok
  | error
  | abort
  deriving DecidableEq, Repr

/-- The build and the communicators: whether assertions are enabled, rank and size in each communicator. -/
structure Build where
  asserts : Bool
  shape : Comm → ℕ × ℕ

/-- `ParticipantImpl::ParticipantImpl`, `src/precice/impl/ParticipantImpl.cpp:85-163`, and `configure`, lines 173-246.
The destructor does not run if the constructor throws. -/
def Proc.construct (b : Build) (p : Proc) (i : ℕ) (a : Args) : Status × Proc :=
  let w := Who.lib (some i)
  if !a.plausible || decide (a.size ≤ a.rank) then (.error, p) else
  match p.initializeOrDetect b.asserts w a.comm with
  | none => (.abort, p)
  | some p =>
    let p := p.use w
    if a.rank ≠ (b.shape p.comm).1 then (.error, p) else
    let p := p.use w
    if a.size ≠ (b.shape p.comm).2 then (.error, p) else
    let p := p.use w
    let p := p.readConfig w a.cfg
    if !a.cfg.ok then (.error, p) else
    (.ok, { p with alive := i :: p.alive })

/-- `ParticipantImpl::finalize`, `src/precice/impl/ParticipantImpl.cpp:587-637`, called by the application or by the
destructor (lines 165-171). -/
def Proc.finalize (p : Proc) (i : ℕ) : Status × Proc :=
  let w := Who.lib (some i)
  if i ∈ p.alive then
    (.ok, { (p.petscFinalize w).finalizeOrCleanup w with alive := p.alive.erase i })
  else (.error, p)

/-- `tooling::checkConfiguration`, `src/precice/Tooling.cpp:32-66`. -/
def Proc.check (p : Proc) (cfg : Config) : Status × Proc :=
  let w := Who.lib none
  let wasInitialized := p.env.initialized
  let p := if wasInitialized then p else p.initializeTesting w
  let p := p.readConfig w cfg
  if !cfg.ok then (.error, p) else
  (.ok, if wasInitialized then p else (p.petscFinalize w).finalizeTesting w)

/-- What happens in the process: calls of the application to MPI and PETSc, the construction of a participant, its work
on the communicator of `Parallel::current()` (`src/com/MPIDirectCommunication.cpp:46`,
`src/com/MPISinglePortsCommunication.cpp:122-143`, `src/utils/Petsc.cpp:184-186`), its end, and the check of a
configuration. -/
inductive Op
  | app (c : Call)
  | construct (i : ℕ) (a : Args)
  | work (i : ℕ)
  | finalize (i : ℕ)
  | check (cfg : Config)
  deriving DecidableEq, Repr

/-- One operation. -/
def Proc.step (b : Build) (p : Proc) : Op → Status × Proc
  | .app c => (.ok, p.call .app c)
  | .construct i a => p.construct b i a
  | .work i => if i ∈ p.alive then (.ok, p.use (.lib (some i))) else (.error, p)
  | .finalize i => p.finalize i
  | .check cfg => p.check cfg

/-- A program; the application catches errors and carries on, an abort ends it. -/
def Proc.run (b : Build) (p : Proc) : List Op → Status × Proc
  | [] => (.ok, p)
  | op :: ops =>
    match p.step b op with
    | (.abort, p) => (.abort, p)
    | (_, p) => p.run b ops

end Verif.Mpi
