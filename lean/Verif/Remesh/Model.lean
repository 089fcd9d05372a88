import Mathlib.Algebra.Order.Field.Rat

/-!
# Data of meshes that change

What happens to the samples of one data set when the participant that writes it or the one that reads it replaces its
mesh (`resetMesh` and new vertices), in the parallel coupling schemes, the only ones that support it
(`src/cplscheme/config/CouplingSchemeConfiguration.cpp:332-407`).

The sender writes on its mesh. The data is read on the mesh of the sender by direct access, or mapped by the reader to
its own mesh (read mapping), or mapped by the sender to the mesh of the reader (write mapping). One step of the model is
the end of a time window, `advance` of both participants.

Simplifications: the participants are serial; times are rational numbers compared exactly; a sample is the number of
vertices it has been made for and a value; the mapping of values is an arbitrary function of the two meshes; there is no
acceleration, no action, no gradient, and no initial data but zero; whether the iteration has converged is an input.
-/

set_option autoImplicit false

namespace Verif.Remesh

/-- `time::Sample`, `src/time/Sample.hpp`: the number of vertices and the values. -/
structure Sample (α : Type) where
  n : ℕ
  v : α
  deriving DecidableEq, Repr

/-- `time::Waveform`, `src/time/Waveform.hpp`: samples and their times. The interpolant is left out. -/
abbrev Wave (α : Type) := List (ℚ × Sample α)

variable {α : Type}

/-- The times of a waveform, `src/time/Waveform.cpp:169-176`. -/
def Wave.times (w : Wave α) : List ℚ := w.map Prod.fst

/-- `Waveform::setSampleAtTime`, `src/time/Waveform.cpp:29-52`: replaces the sample at that time or appends it. -/
def Wave.set (w : Wave α) (t : ℚ) (s : Sample α) : Wave α :=
  if t ∈ w.times then w.map fun x => if x.1 = t then (t, s) else x else w ++ [(t, s)]

/-- `Waveform::setAllSamples`, `src/time/Waveform.cpp:54-59`. -/
def Wave.setAll (w : Wave α) (s : Sample α) : Wave α := w.map fun x => (x.1, s)

/-- `Waveform::trimBefore`, `src/time/Waveform.cpp:139-146`. -/
def Wave.trimBefore (w : Wave α) (t : ℚ) : Wave α := w.filter fun x => decide (t ≤ x.1)

/-- `Waveform::trimAfter`, `src/time/Waveform.cpp:148-155`. -/
def Wave.trimAfter (w : Wave α) (t : ℚ) : Wave α := w.filter fun x => decide (x.1 ≤ t)

/-- `Data::moveToNextWindow`, `src/mesh/Data.cpp:97-104`, and `Waveform::move`, `src/time/Waveform.cpp:95-105`: the last
sample stays. -/
def Wave.move (w : Wave α) : Wave α := if 1 < w.length then w.drop (w.length - 1) else w

/-- How the data gets from the mesh of the sender to where it is read. -/
inductive Kind
  | direct
  | read
  | write
  deriving DecidableEq, Repr

/-- The configuration: kind of the scheme and of the mapping, whether substeps are exchanged, the mapping of values
between meshes of the sizes given, and the value zero. -/
structure Config (α : Type) where
  implicit : Bool
  substeps : Bool
  kind : Kind
  f : ℕ → ℕ → α → α
  zero : α

/-- The two participants: current window, sizes of the meshes of sender and reader, the data written (`src`), the same on
the mesh of the reader at the sender (`mapped`, write mappings only), the data received (`got`), and the same on the mesh
of the reader (`tgt`, read mappings only). -/
structure State (α : Type) where
  start : ℚ
  stop : ℚ
  nS : ℕ
  nR : ℕ
  src : Wave α
  mapped : Wave α
  got : Wave α
  tgt : Wave α
  deriving DecidableEq, Repr

/-- One advance to the end of the window: new sizes of meshes that have been reset, values written in time steps before
the end of the window, the value written at its end, whether the iteration has converged, and the end of the next
window. -/
structure Input (α : Type) where
  chS : Option ℕ := none
  chR : Option ℕ := none
  subs : List (ℚ × α) := []
  v : α
  conv : Bool := false
  next : ℚ

/-- Whether a mesh has been reset, which both participants learn in `reinitHandshake`,
`src/precice/impl/ParticipantImpl.cpp:1924-1956`. -/
def Input.remeshed (i : Input α) : Bool := i.chS.isSome || i.chR.isSome

/-- Time steps before the end of the window, `src/precice/impl/ParticipantImpl.cpp:475-482`: only stored if substeps are
exchanged. A participant that has reset a mesh may not do them (line 440), so the size is the old one. -/
def stepSubs (c : Config α) (i : Input α) (s : State α) : State α :=
  if c.substeps then { s with src := i.subs.foldl (fun w x => Wave.set w x.1 ⟨s.nS, x.2⟩) s.src } else s

/-- The size of the mesh of the coupling data. -/
def Config.size (c : Config α) (s : State α) : ℕ := match c.kind with
  | .write => s.nR
  | _ => s.nS

/-- Resetting the mesh of the sender, `ParticipantImpl::resetMesh`, `src/precice/impl/ParticipantImpl.cpp:775-790`, and
`clearStamplesOfChangedMeshes`, lines 1912-1922. -/
def resetSender (i : Input α) (s : State α) : State α :=
  match i.chS with
  | some n => { s with nS := n, src := [] }
  | none => s

/-- Resetting the mesh of the reader. With a write mapping, the data received is on this mesh. -/
def resetReader (c : Config α) (i : Input α) (s : State α) : State α :=
  match i.chR with
  | some n => { s with nR := n, tgt := [], got := match c.kind with | .write => [] | _ => s.got }
  | none => s

/-- `setupCommunication`, `src/precice/impl/ParticipantImpl.cpp:321-378`: received meshes are cleared with their data and
received again, `ReceivedPartition::compareBoundingBoxes`, `src/partition/ReceivedPartition.cpp:382-392`, and
`Mesh::clear`, `src/mesh/Mesh.cpp:280-292`. -/
def clearReceived (c : Config α) (s : State α) : State α :=
  match c.kind with
  | .write => { s with mapped := [] }
  | _ => { s with got := [] }

/-- `BaseCouplingScheme::reinitialize`, `src/cplscheme/BaseCouplingScheme.cpp:309-327`, and `CouplingData::reinitialize`,
`src/cplscheme/CouplingData.cpp:162-175`, of both participants: all samples of the coupling data are zero. -/
def reinitialize (c : Config α) (s : State α) : State α :=
  if c.implicit then
    match c.kind with
    | .write => { s with mapped := s.mapped.setAll ⟨s.nR, c.zero⟩, got := s.got.setAll ⟨s.nR, c.zero⟩ }
    | _ => { s with src := s.src.setAll ⟨s.nS, c.zero⟩, got := s.got.setAll ⟨s.nS, c.zero⟩ }
  else s

/-- Remeshing in `advance`, `src/precice/impl/ParticipantImpl.cpp:430-442`. -/
def stepRemesh (c : Config α) (i : Input α) (s : State α) : State α :=
  let s := resetReader c i (resetSender i s)
  if i.remeshed then reinitialize c (clearReceived c s) else s

/-- `DataContext::mapData`, `src/precice/impl/DataContext.cpp:108-171`: samples after the given time whose time the target
does not have are mapped. `none`: a sample does not have the size of the input mesh, which the mappings take for granted
(such as `src/mapping/NearestNeighborMapping.cpp:59,78`). -/
def mapData (c : Config α) (s : State α) (after : Option ℚ) (src tgt : Wave α) : Option (Wave α) :=
  let l := src.filter fun x => (match after with | some t => decide (t < x.1) | none => true) &&
    decide (x.1 ∉ tgt.times)
  if l.all (fun x => x.2.n = s.nS) then
    some (l.foldl (fun w x => Wave.set w x.1 ⟨s.nR, c.f s.nS s.nR x.2.v⟩) tgt)
  else none

/-- Storing and mapping the data written, `handleDataBeforeAdvance`, `src/precice/impl/ParticipantImpl.cpp:468-494`. -/
def stepWrite (c : Config α) (i : Input α) (s : State α) : Option (State α) :=
  let s := { s with src := s.src.set s.stop ⟨s.nS, i.v⟩ }
  match c.kind with
  | .write => (mapData c s (some s.start) s.src s.mapped).map fun w => { s with mapped := w }
  | _ => some s

/-- The coupling data of the sender. -/
def State.sent (c : Config α) (s : State α) : Wave α := match c.kind with
  | .write => s.mapped
  | _ => s.src

/-- `BaseCouplingScheme::sendData` and `receiveData`, `src/cplscheme/BaseCouplingScheme.cpp:112-204`: all samples if
substeps are exchanged (`SerializedStamples`, `src/com/SerializedStamples.cpp:47-100`), otherwise the last one. `none`: a
sample does not have the size of the mesh, or there is none. -/
def stepExchange (c : Config α) (s : State α) : Option (State α) :=
  if (s.sent c).all (fun x => x.2.n = c.size s) then
    if c.substeps then
      if (s.sent c).isEmpty then none else
      some { s with got := (s.sent c).foldl (fun w x => Wave.set w x.1 x.2) [] }
    else
      match (s.sent c).getLast? with
      | some x => some { s with got := Wave.set s.got s.stop x.2 }
      | none => none
  else none

/-- `moveToNextWindow`, `src/cplscheme/BaseCouplingScheme.cpp:423-429`, of both participants. -/
def moveAll (c : Config α) (s : State α) : State α :=
  match c.kind with
  | .write => { s with mapped := s.mapped.move, got := s.got.move }
  | _ => { s with src := s.src.move, got := s.got.move }

/-- Moving on, `handleDataAfterAdvance`, `src/precice/impl/ParticipantImpl.cpp:496-516`, with `trimOldDataBefore`, lines
562-570, `trimSendDataAfter`, lines 572-577, and `trimReadMappedData`, lines 1678-1693. -/
def stepTrim (c : Config α) (complete : Bool) (s : State α) : State α :=
  if complete then
    let s := moveAll c s
    { s with
      src := s.src.trimBefore s.stop
      mapped := s.mapped.trimBefore s.stop
      got := s.got.trimBefore s.stop
      tgt := if c.implicit then [] else s.tgt.trimBefore s.stop }
  else
    { s with
      src := s.src.trimAfter s.start
      mapped := s.mapped.trimAfter s.start
      tgt := s.tgt.trimAfter s.start }

/-- `mapReadData`, `src/precice/impl/ParticipantImpl.cpp:1713-1729`. -/
def stepRead (c : Config α) (s : State α) : Option (State α) :=
  match c.kind with
  | .read => (mapData c s none s.got s.tgt).map fun w => { s with tgt := w }
  | _ => some s

/-- Whether the window is complete. -/
def Input.complete (c : Config α) (i : Input α) : Bool := !c.implicit || i.conv

/-- `advance` of both participants at the end of a window, `src/precice/impl/ParticipantImpl.cpp:392-466`. -/
def step (c : Config α) (i : Input α) (s : State α) : Option (State α) := do
  let s := stepRemesh c i (stepSubs c i s)
  let s ← stepWrite c i s
  let s ← stepExchange c s
  let s := stepTrim c (i.complete c) s
  let s ← stepRead c s
  if i.complete c then some { s with start := s.stop, stop := i.next } else some s

/-- A sequence of ends of windows. -/
def run (c : Config α) : List (Input α) → State α → Option (State α)
  | [], s => some s
  | i :: is, s => (step c i s).bind (run c is)

/-- After `initialize` without initial data: the reader has zeros (`initializeWithZeroInitialData`,
`src/cplscheme/BaseCouplingScheme.cpp:219-226`), mapped to its mesh without executing the mapping
(`src/precice/impl/DataContext.cpp:146-153`); the sender has stored the zeros of its buffer and mapped them in the same
way (`src/precice/impl/ParticipantImpl.cpp:278-292`). -/
def start (c : Config α) (nS nR : ℕ) (stop : ℚ) : State α where
  start := 0
  stop := stop
  nS := nS
  nR := nR
  src := [(0, ⟨nS, c.zero⟩)]
  mapped := match c.kind with | .write => [(0, ⟨nR, c.zero⟩)] | _ => []
  got := match c.kind with | .write => [(0, ⟨nR, c.zero⟩)] | _ => [(0, ⟨nS, c.zero⟩)]
  tgt := match c.kind with | .read => [(0, ⟨nR, c.zero⟩)] | _ => []

/-- The waveform that `readData` samples. -/
def State.readable (c : Config α) (s : State α) : Wave α := match c.kind with
  | .read => s.tgt
  | _ => s.got

/-- The number of vertices of the mesh on which the data is read. -/
def State.readSize (c : Config α) (s : State α) : ℕ := match c.kind with
  | .direct => s.nS
  | _ => s.nR

end Verif.Remesh
