import Mathlib.Logic.Function.Basic
import Mathlib.Data.Nat.Notation

/-!
# Connections between the ranks of two participants

How the ranks of two participants that exchange a mesh connect to each other
(`PointToPointCommunication::acceptConnection` and `requestConnection`, `src/m2n/PointToPointCommunication.cpp:327-421` and
`454-554`) with sockets, with one MPI port per rank (`mpi-multiple-ports`) and with a single MPI port (`mpi`).

Simplifications: the vertex distributions of both participants are known to all ranks (they are exchanged by the primary
ranks before, lines 335-371); the exchange of the rank on a fresh connection is one step together with the connection; the
directory with connection information is what has been published, see `Verif.Com.ConnectionInfo` for the files. Nothing
fails on its own: no refused connection, no limit of the operating system.
-/

set_option autoImplicit false

namespace Verif.Ports

/-- Two participants: numbers of ranks and the vertices of the exchanged mesh on each rank
(`Mesh::getVertexDistribution`). -/
structure Conf where
  nA : ℕ
  nR : ℕ
  vA : ℕ → List ℕ
  vR : ℕ → List ℕ

/-- Whether two lists of vertices intersect, `buildCommunicationMap`, `src/m2n/PointToPointCommunication.cpp:261-305`. -/
def meets (u w : List ℕ) : Bool := u.any fun x => w.contains x

/-- The keys of the communication map of a rank of the acceptor, in increasing order (`std::map`). -/
def Conf.partnersA (c : Conf) (a : ℕ) : List ℕ := (List.range c.nR).filter fun r => meets (c.vA a) (c.vR r)

/-- The same for a rank of the requester. -/
def Conf.partnersR (c : Conf) (r : ℕ) : List ℕ := (List.range c.nA).filter fun a => meets (c.vR r) (c.vA a)

/-- State of the establishment with one port per rank: number of connections made so far, which names them, ports that
have been published, acceptors that each requester still has to connect to, and the connections that each rank has stored
under the rank of the peer (`_communicators`, `src/com/MPIPortsCommunication.hpp:71`, and `_sockets`,
`src/com/SocketCommunication.hpp:152`). -/
structure State where
  next : ℕ
  pub : ℕ → Bool
  todo : ℕ → List ℕ
  connA : ℕ → List (ℕ × ℕ)
  connR : ℕ → List (ℕ × ℕ)

/-- Ranks without a partner return at once (`src/m2n/PointToPointCommunication.cpp:395-398`, `523-526`). -/
def init (c : Conf) : State where
  next := 0
  pub := fun _ => false
  todo := c.partnersR
  connA := fun _ => []
  connR := fun _ => []

/-- A rank opens and publishes its port, `MPIPortsCommunication::acceptConnectionAsServer`,
`src/com/MPIPortsCommunication.cpp:117-125`, and `SocketCommunication::acceptConnectionAsServer`,
`src/com/SocketCommunication.cpp:163-179`. -/
def publish (s : State) (a : ℕ) : State := { s with pub := Function.update s.pub a true }

/-- A rank connects to a port, and both sides store the connection,
`src/com/MPIPortsCommunication.cpp:127-140` and `200-215`, `src/com/SocketCommunication.cpp:183-194` and `277-318`. -/
def connect (s : State) (r a : ℕ) (l : List ℕ) : State where
  next := s.next + 1
  pub := s.pub
  todo := Function.update s.todo r l
  connA := Function.update s.connA a (s.connA a ++ [(r, s.next)])
  connR := Function.update s.connR r (s.connR r ++ [(a, s.next)])

/-- What may happen next. An acceptor accepts as many connections as it has partners, from whoever comes, and then closes
its port. A requester goes through its partners in increasing order and waits for the port of each. -/
inductive Step (c : Conf) : State → State → Prop
  | publish {s : State} {a : ℕ} (ha : a < c.nA) (hp : c.partnersA a ≠ []) (hn : s.pub a = false) :
      Step c s (publish s a)
  | connect {s : State} {r a : ℕ} {l : List ℕ} (hr : r < c.nR) (ht : s.todo r = a :: l) (hp : s.pub a = true)
      (hl : (s.connA a).length < (c.partnersA a).length) : Step c s (connect s r a l)

/-- Runs of a given number of steps, in any order. -/
inductive Run (c : Conf) : ℕ → State → Prop
  | init : Run c 0 (init c)
  | step {n : ℕ} {s t : State} (h : Run c n s) (hs : Step c s t) : Run c (n + 1) t

/-- All ranks have returned: all acceptors have accepted as many connections as they have partners, all requesters have
connected to all their partners. -/
def Done (c : Conf) (s : State) : Prop :=
  (∀ a < c.nA, (s.connA a).length = (c.partnersA a).length) ∧ ∀ r < c.nR, s.todo r = []

/-- The connection stored under a rank (`std::map::at`). -/
def at? (l : List (ℕ × ℕ)) (r : ℕ) : Option ℕ := (l.find? fun x => x.1 == r).map Prod.snd

/-! ## A single port -/

/-- A rank of one of the participants, `true` for the acceptor. -/
abbrev Rank := Bool × ℕ

/-- The ranks of both participants. -/
def Conf.valid (c : Conf) (x : Rank) : Prop := x.2 < if x.1 then c.nA else c.nR

/-- The keys of the communication map of a rank. -/
def Conf.partners (c : Conf) (x : Rank) : List ℕ := if x.1 then c.partnersA x.2 else c.partnersR x.2

/-- Ranks that have called `MPI_Comm_accept` or `MPI_Comm_connect` on the communicator of their participant. -/
abbrev Called := Rank → Bool

/-- `MPISinglePortsCommunication::acceptConnectionAsServer` and `requestConnectionAsClient`,
`src/com/MPISinglePortsCommunication.cpp:110-149` and `185-208`: only reached by ranks with a partner
(`src/m2n/PointToPointCommunication.cpp:395-398`, `523-526`). -/
inductive SingleStep (c : Conf) : Called → Called → Prop
  | call {s : Called} {x : Rank} (hx : c.valid x) (hp : c.partners x ≠ []) (hn : s x = false) :
      SingleStep c s (Function.update s x true)

/-- Runs, in any order. -/
inductive SingleRun (c : Conf) : ℕ → Called → Prop
  | init : SingleRun c 0 fun _ => false
  | step {n : ℕ} {s t : Called} (h : SingleRun c n s) (hs : SingleStep c s t) : SingleRun c (n + 1) t

/-- A rank has returned: it has no partner, or it has called and the connection has been made. Both functions of MPI are
collective: they return when all ranks of both communicators have called them (MPI 4.0, 11.9.2 and 11.9.3). -/
def Returned (c : Conf) (s : Called) (x : Rank) : Prop :=
  c.partners x = [] ∨ s x = true ∧ ∀ y, c.valid y → s y = true

end Verif.Ports
