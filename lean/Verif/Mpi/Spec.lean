import Verif.Mpi.Model

/-!
# What an application expects of preCICE in its process

Stated in terms of the calls of MPI and PETSc that preCICE makes.
-/

set_option autoImplicit false

namespace Verif.Mpi

/-- A call that preCICE makes. -/
def Event.byLib (e : Event) : Bool := e.who != .app

/-- How often preCICE initializes MPI. -/
def inits (l : List Event) : ℕ := l.countP fun e => e.byLib && e.call == .init

/-- How often preCICE finalizes MPI. -/
def fins (l : List Event) : ℕ := l.countP fun e => e.byLib && e.call == .finalize

/-- The life of one participant: construction, work and end. -/
structure Session where
  id : ℕ
  args : Args
  works : ℕ

/-- The calls of the application. -/
def Session.ops (s : Session) : List Op :=
  .construct s.id s.args :: (List.replicate s.works (.work s.id) ++ [.finalize s.id])

/-- The communicator the participant is to work on: the one given, or the world. -/
def Session.comm (s : Session) : Comm := s.args.comm.getD .world

/-- The arguments are right: rank and size are those in the communicator, and the configuration is accepted. -/
structure Session.Good (b : Build) (s : Session) : Prop where
  plausible : s.args.plausible = true
  lt : s.args.rank < s.args.size
  shape : b.shape s.comm = (s.args.rank, s.args.size)
  ok : s.args.cfg.ok = true
  comm : s.comm ≠ .null

/-- What preCICE does for a participant in an environment where MPI is running: it only uses the communicator, and starts
and stops PETSc if the configuration needs it. -/
def Session.events (s : Session) : List Event :=
  let ev (c : Call) : Event := ⟨.lib (some s.id), c, true⟩
  List.replicate 3 (ev (.use s.comm)) ++
    ((if s.args.cfg.petsc then [ev (.petscInit s.comm)] else []) ++
      (List.replicate s.works (ev (.use s.comm)) ++
        (if s.args.cfg.petsc then [ev .petscFinalize] else [])))

end Verif.Mpi
