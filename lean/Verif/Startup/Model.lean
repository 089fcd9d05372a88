import Verif.Net.Ordered
import Mathlib.Data.List.FinRange
import Mathlib.Data.Fin.Basic
import Mathlib.Data.List.Sort

/-!
# What participants tell each other in `initialize()` and `finalize()`

Participants are numbered in the order of their names, meshes as well. Messages between the primary ranks are modelled; what happens between the ranks of one
participant is in `Dist` and `Com`.
-/

set_option autoImplicit false

namespace Verif.Startup

open Ordered (collect)

/-- An `<m2n:… acceptor connector>` tag (m2n/config/M2NConfiguration.cpp:138-196). `p2p`: the distribution is point-to-point; gather-scatter otherwise. Two-level
initialization is off, see `targets` for it. -/
structure Link (n : ℕ) where
  acceptor : Fin n
  connector : Fin n
  p2p : Bool

/-- Whether a link is between two participants (M2NConfiguration::getM2N, m2n/config/M2NConfiguration.cpp:112-124). -/
def Link.joins {n : ℕ} (l : Link n) (p q : Fin n) : Bool := (l.acceptor == p && l.connector == q) || (l.connector == p && l.acceptor == q)

/-- The configuration and what participants bring. `C` is the content of a mesh, `D` a vertex distribution, `I` version and hash of the configuration. -/
structure Setup (n : ℕ) (C D I : Type) where
  links : List (Link n)
  /-- The participants in the order of the configuration. -/
  order : List (Fin n)
  /-- `<provide-mesh name>` -/
  provided : Fin n → List ℕ
  /-- `<receive-mesh name from>` -/
  received : Fin n → List (ℕ × Fin n)
  /-- `Mesh::getID`, given in the order in which meshes are configured. -/
  meshId : ℕ → ℕ
  /-- The meshes which participants have defined before `initialize()`, gathered on the primary rank. -/
  content : Fin n → ℕ → C
  /-- The number of vertices. -/
  size : C → ℕ
  /-- `Mesh::getVertexDistribution` after `computePartitions`: depends on the meshes received. -/
  dist : Fin n → List (ℕ × C) → ℕ → D
  /-- `makeLocalInfo` (m2n/M2N.cpp:44-51) -/
  info : Fin n → I
  /-- `wait-in-finalize` -/
  wait : Bool

/-- What is sent. `address` is the file with the connection information, which the requester waits for; with `connected` the requester ends the wait of the acceptor
(`acceptConnection` and `requestConnection`, com/SocketCommunication.cpp:45-200). The code has separate channels for the connections, the model has one between two participants. -/
inductive Msg (C D I : Type) where
  | address
  | connected
  | info (i : I)
  | mesh (c : C)
  | dist (d : D)
  | ping
  | pong

variable {n : ℕ} {C D I : Type} [DecidableEq I]

abbrev Do (n : ℕ) (C D I α : Type) := Prog (Fin n) (Msg C D I) α

/-- The partner in a link. -/
def Link.other (l : Link n) (p : Fin n) : Fin n := if l.acceptor = p then l.connector else l.acceptor

/-- The links of a participant with the name of the partner, before they are put into a map (Configuration::getBoundM2NsFor, precice/config/Configuration.cpp:131-172). -/
def bound (s : Setup n C D I) (p : Fin n) : List (Link n) := s.links.filter fun l => l.acceptor = p || l.connector = p

/-- The partners of a participant, in the order of their names as in the map (Configuration.cpp:133), with the link and whether the participant is `isRequesting`
(which is the acceptor of the configuration, Configuration.cpp:142-148). -/
def partners (s : Setup n C D I) (p : Fin n) : List (Fin n × Link n × Bool) :=
  (List.finRange n).filterMap fun q => (s.links.find? (·.joins p q)).map fun l => (q, l, decide (l.acceptor = p))

/-- Receive an address, a confirmation, … Anything else would be bytes of another type: the code does not check, the model fails. -/
def getAddress {α : Type} (q : Fin n) (k : Do n C D I α) : Do n C D I α := .recv q fun | .address => k | _ => .fail .assert
def getConnected {α : Type} (q : Fin n) (k : Do n C D I α) : Do n C D I α := .recv q fun | .connected => k | _ => .fail .assert
def getInfo {α : Type} (q : Fin n) (k : I → Do n C D I α) : Do n C D I α := .recv q fun | .info i => k i | _ => .fail .assert
def getMesh {α : Type} (q : Fin n) (k : C → Do n C D I α) : Do n C D I α := .recv q fun | .mesh c => k c | _ => .fail .assert
def getDist {α : Type} (q : Fin n) (k : D → Do n C D I α) : Do n C D I α := .recv q fun | .dist d => k d | _ => .fail .assert
def getPing {α : Type} (q : Fin n) (k : Do n C D I α) : Do n C D I α := .recv q fun | .ping => k | _ => .fail .assert
def getPong {α : Type} (q : Fin n) (k : Do n C D I α) : Do n C D I α := .recv q fun | .pong => k | _ => .fail .assert

/-- Wait for the connection (`acceptConnection`). -/
def accept {α : Type} (q : Fin n) (k : Do n C D I α) : Do n C D I α := .send q .address (getConnected q k)

/-- Connect (`requestConnection`). -/
def request {α : Type} (q : Fin n) (k : Do n C D I α) : Do n C D I α := getAddress q (.send q .connected k)

/-- BoundM2N::connectPrimaryRanks (m2n/BoundM2N.cpp:23-32), M2N::acceptPrimaryRankConnection and M2N::requestPrimaryRankConnection (m2n/M2N.cpp:74-131), with
M2N::checkRemoteInfo (55-72). -/
def connect (s : Setup n C D I) (p : Fin n) (x : Fin n × Link n × Bool) : Do n C D I Unit :=
  if x.2.2 then request x.1 (getInfo x.1 fun i => .send x.1 (.info (s.info p)) (.ensure .check (i = s.info p) (.ret ())))
  else accept x.1 (.send x.1 (.info (s.info p)) (getInfo x.1 fun i => .ensure .check (i = s.info p) (.ret ())))

/-- Whether a mesh is provided, or received from another participant. -/
inductive Use (n : ℕ) where
  | provide
  | receive (q : Fin n)
deriving DecidableEq

/-- The meshes of a participant, sorted by name (ParticipantImpl::computePartitions, precice/impl/ParticipantImpl.cpp:1573-1579). -/
def contexts (s : Setup n C D I) (p : Fin n) : List (ℕ × Use n) :=
  ((s.provided p).map (fun m => (m, Use.provide)) ++ (s.received p).map fun x : ℕ × Fin n => (x.1, Use.receive x.2)).insertionSort fun a b => a.1 ≤ b.1

/-- The receivers of a provided mesh, in the order of the configured participants (Configuration::configurePartitionsFor, precice/config/Configuration.cpp:182-201). -/
def receivers (s : Setup n C D I) (p : Fin n) (m : ℕ) : List (Fin n) :=
  s.order.flatMap fun r => ((s.received r).filter fun x => x.1 = m && x.2 = p).map fun _ => r

/-- ProvidedPartition::communicate (partition/ProvidedPartition.cpp:35-112) and ReceivedPartition::communicate (partition/ReceivedPartition.cpp:44-88) for one-level
initialization, on the primary rank: the mesh received, if any. That a mesh arrives as it was sent is C66. -/
def communicate (s : Setup n C D I) (p : Fin n) (x : ℕ × Use n) : Do n C D I (List (ℕ × C)) :=
  match x.2 with
  | .provide => (collect (fun r => .ensure .check (0 < s.size (s.content p x.1)) (.send r (.mesh (s.content p x.1)) (.ret ()))) (receivers s p x.1)).bind fun _ => .ret []
  | .receive q => getMesh q fun c => .ret [(x.1, c)]

/-- The meshes for which there is a communication of data with a partner (M2N::createDistributedCommunication, called in precice/config/Configuration.cpp:196 and 213), in the
order of mesh IDs (`_distComs`, m2n/M2N.hpp:231). -/
def shared (s : Setup n C D I) (p q : Fin n) : List ℕ :=
  ((s.provided p).filter (fun m => (m, p) ∈ s.received q) ++ ((s.received p).filter fun x => x.2 = q).map (·.1)).insertionSort fun a b => s.meshId a ≤ s.meshId b

/-- PointToPointCommunication::acceptConnection and requestConnection (m2n/PointToPointCommunication.cpp:327-347, 454-475), between the primary ranks: each learns the
distribution of the other. -/
def exchange (s : Setup n C D I) (p : Fin n) (got : List (ℕ × C)) (q : Fin n) (requesting : Bool) (m : ℕ) : Do n C D I (Fin n × ℕ × D) :=
  if requesting then request q (getDist q fun d => .send q (.dist (s.dist p got m)) (.ret (q, m, d)))
  else accept q (.send q (.dist (s.dist p got m)) (getDist q fun d => .ret (q, m, d)))

/-- BoundM2N::connectSecondaryRanks (m2n/BoundM2N.cpp:34-49), M2N::acceptSecondaryRanksConnection and requestSecondaryRanksConnection (m2n/M2N.cpp:133-163).
GatherScatterCommunication::acceptConnection and requestConnection (m2n/GatherScatterCommunication.cpp:40-62) do not communicate. -/
def secondary (s : Setup n C D I) (p : Fin n) (got : List (ℕ × C)) (x : Fin n × Link n × Bool) : Do n C D I (List (Fin n × ℕ × D)) :=
  if x.2.1.p2p then collect (exchange s p got x.1 x.2.2) (shared s p x.1) else .ret []

/-- What a participant knows after `initialize()`: the meshes received, and the distributions of its partners. -/
abbrev Known (n : ℕ) (C D : Type) := List (ℕ × C) × List (Fin n × ℕ × D)

/-- ParticipantImpl::setupCommunication (precice/impl/ParticipantImpl.cpp:321-378). For one-level initialization `compareBoundingBoxes` and `preConnectSecondaryRanks` do not
communicate with other participants. -/
def setup (s : Setup n C D I) (p : Fin n) : Do n C D I (Known n C D) :=
  (collect (connect s p) (partners s p)).bind fun _ =>
  (collect (communicate s p) (contexts s p)).bind fun got =>
  (collect (secondary s p got.flatten) (partners s p)).bind fun ds => .ret (got.flatten, ds.flatten)

/-- What the configuration checks for a participant: partners are not repeated (M2NConfiguration::checkDuplicates, m2n/config/M2NConfiguration.cpp:207-221, asserted in
Configuration.cpp:153), there is a link to those it receives meshes from and sends meshes to (getM2N, Configuration.cpp:195 and 212), it does not receive from itself
(ParticipantConfiguration.cpp:294-297), and does not use a mesh twice (ParticipantState.cpp:439-445). -/
def accepted (s : Setup n C D I) (p : Fin n) : Bool :=
  decide (((bound s p).map (·.other p)).Nodup) &&
  (s.received p).all (fun x => s.links.any (·.joins p x.2) && decide (x.2 ≠ p)) &&
  (s.provided p).all (fun m => (receivers s p m).all fun r => s.links.any (·.joins r p)) &&
  decide ((s.provided p ++ (s.received p).map (·.1)).Nodup)

/-- The configuration and then `initialize()`, up to the initialization of the coupling scheme. -/
def start (s : Setup n C D I) (p : Fin n) : Do n C D I (Known n C D) := .ensure .check (accepted s p = true) (setup s p)

/-- ParticipantImpl::closeCommunicationChannels (precice/impl/ParticipantImpl.cpp:1828-1866), for one partner. -/
def close (s : Setup n C D I) (x : Fin n × Link n × Bool) : Do n C D I Unit :=
  if s.wait then
    if x.2.2 then .send x.1 .ping (getPong x.1 (.ret ()))
    else getPing x.1 (.send x.1 .pong (.ret ()))
  else .ret ()

/-- The communication in `finalize()`. -/
def finalize (s : Setup n C D I) (p : Fin n) : Do n C D I Unit := (collect (close s) (partners s p)).bind fun _ => .ret ()

/-! ## Two-level initialization -/

/-- What a provider gives to a receiver: the whole mesh, or (two-level) its size, followed by the parts of the mesh. -/
inductive Gift where
  | whole
  | parts
deriving DecidableEq, Repr

/-- ProvidedPartition::communicate (partition/ProvidedPartition.cpp:35-112): to whom it gives what. The list has the receivers and whether their link uses two-level
initialization. `none`: the check of lines 53-56. With two-level initialization the code uses `_m2ns[0]`, not the link of the loop (62, 71-75). -/
def targetsFrom {ι : Type} (first : ι) : Bool → List (ι × Bool) → Option (List (ι × Gift))
  | _, [] => some []
  | used, (_, true) :: l => if used then none else (targetsFrom first true l).map fun t => (first, .parts) :: t
  | used, (q, false) :: l => (targetsFrom first used l).map fun t => (q, .whole) :: t

def targets {ι : Type} (l : List (ι × Bool)) : Option (List (ι × Gift)) :=
  match l with
  | [] => some []
  | x :: l => targetsFrom x.1 false (x :: l)

end Verif.Startup
