import Verif.Mapping.TimeSamples

/-!
# The path of coupling data through two participants (C104)

Model of what `ParticipantImpl::initialize` and `ParticipantImpl::advance` (`/repo/src/precice/impl/ParticipantImpl.cpp`) do with the
samples of one exchanged data: the writer stores what was written, maps it, and the coupling scheme sends it; the reader's coupling
scheme stores what arrives, and the reader maps it to the mesh it reads from.

A sample is an element of an arbitrary type `V` (the vector of all values on a mesh; meshes are not distinguished by type). A storage
is the list of its samples; the cached spline of `Verif.Waveform` is left out, because every read happens after the storage is final
(`setSample_eq` relates the two models). Simplifications: one mapping per data context, no actions, no remeshing, no compositional
scheme. The time at which each function is called is an argument; `Verif.Scheme` and `Verif.Time` say which times occur. What
acceleration does to a storage is an argument as well: it is any list of samples after the window start.
-/

set_option autoImplicit false

namespace Verif.DataPath

variable {V : Type}

/-- `_stampleStorage` -/
abbrev Samples (V : Type) := List (ℚ × V)

/-- Overwrite the first sample with a matching time, Waveform.cpp:48-50. -/
def overwrite (t : ℚ) (v : V) : Samples V → Samples V
  | [] => []
  | s :: l => if equals s.1 t then (s.1, v) :: l else s :: overwrite t v l

/-- `setSampleAtTime`, Waveform.cpp:29-52, Data.cpp:106-111 -/
def setSample (t : ℚ) (v : V) (l : Samples V) : Except Err (Samples V) :=
  match l.head?, l.getLast? with
  | some first, some last =>
    if smallerEquals first.1 t then
      if l.any (fun s => decide (equals s.1 t)) then .ok (overwrite t v l)
      else if smaller last.1 t then .ok (l ++ [(t, v)])
      else .error .assert
    else .error .assert
  | _, _ => .ok [(t, v)]

/-- Set several samples one after the other. -/
def setSamples (new : Samples V) (l : Samples V) : Except Err (Samples V) := new.foldlM (fun l s => setSample s.1 s.2 l) l

/-- `Data::moveToNextWindow`, Data.cpp:97-104 -/
def move (l : Samples V) : Samples V := if 1 < l.length then l.drop (l.length - 1) else l

/-- `clearExceptLast`, Waveform.cpp:128-137 -/
def clearExceptLast (l : Samples V) : Samples V := l.drop (l.length - 1)

/-- `trimBefore`, Waveform.cpp:139-146 -/
def trimBefore (t : ℚ) (l : Samples V) : Samples V := l.filter fun s => decide (¬ smaller s.1 t)

/-- `trimAfter`, Waveform.cpp:148-155 -/
def trimAfter (t : ℚ) (l : Samples V) : Samples V := l.filter fun s => decide (¬ greater s.1 t)

/-- A mapping of samples: `map` is `Mapping::map`, `isZero` the test whether the l2-norm is below the tolerance, `zero` the zero sample
of the output mesh, DataContext.cpp:144-151. -/
structure SampleMap (V : Type) where
  map : V → V
  isZero : V → Bool
  zero : V

/-- The sample stored for `v`, DataContext.cpp:144-169. -/
def SampleMap.value (m : SampleMap V) (skipZero : Bool) (v : V) : V := if skipZero && m.isZero v then m.zero else m.map v

/-- One iteration of the loop of `mapData`, DataContext.cpp:133-171; `times` are the times of the target before the loop. -/
def mapSample (m : SampleMap V) (after : Option ℚ) (skipZero : Bool) (times : List ℚ) (dst : Samples V) (s : ℚ × V) :
    Except Err (Samples V) :=
  if (match after with | some a => decide (smallerEquals s.1 a) | none => false) then .ok dst
  else if times.any fun t => decide (equals t s.1) then .ok dst
  else setSample s.1 (m.value skipZero s.2) dst

/-- `DataContext::mapData`, DataContext.cpp:110-174, for one mapping. -/
def mapData (m : SampleMap V) (after : Option ℚ) (skipZero : Bool) (src dst : Samples V) : Except Err (Samples V) :=
  if src.isEmpty then .error .check
  else src.foldlM (mapSample m after skipZero (dst.map (·.1))) dst

/-- The content of one exchange of a data: all samples with their times, or the value at the end only. -/
inductive Msg (V : Type) where
  | samples (l : Samples V)
  | value (v : V)

/-- `BaseCouplingScheme::sendData`, BaseCouplingScheme.cpp:113-150: with substeps all samples, else `getSampleAtEnd`. -/
def message (substeps : Bool) (l : Samples V) : Except Err (Msg V) :=
  match l.getLast? with
  | none => .error .assert
  | some s => .ok (if substeps then .samples l else .value s.2)

/-- `BaseCouplingScheme::receiveData`, BaseCouplingScheme.cpp:168-203, and `SerializedStamples::deserialize`, SerializedStamples.cpp:80-111.
`now` is `getTime()`, which `receiveDataForWindowEnd` shifts. Both participants have the same setting for substeps. -/
def receive (substeps : Bool) (now : ℚ) (msg : Msg V) (l : Samples V) : Except Err (Samples V) :=
  match substeps, msg with
  | true, .samples new => setSamples new []
  | false, .value v => setSample now v l
  | _, _ => .error .assert

/-- What acceleration does to a storage: samples not after the window start are kept, the others are replaced. Relaxation changes the values
in place and keeps the times (Acceleration.cpp:17-50), quasi-Newton methods trim and write the samples of their time grid
(BaseQNAcceleration.cpp:581-607). -/
def accelerate (start : ℚ) (new : Samples V) (l : Samples V) : Samples V := trimAfter start l ++ new

/-! ## The writer -/

/-- Configuration of the writer of a data. -/
structure Writer (V : Type) where
  /-- the write mapping, if there is one -/
  map : Option (SampleMap V)
  /-- `requiresSubsteps()`: some data sent by this scheme has substeps, BaseCouplingScheme.cpp:897-906 -/
  keepSteps : Bool
  /-- `exchangeSubsteps()` of this data -/
  substeps : Bool

/-- `prov` is the storage of the data the user writes, `sent` the storage of the coupling data. Without mapping they are the same object;
then `sent` is not used. -/
structure WriterState (V : Type) where
  prov : Samples V
  sent : Samples V

namespace Writer

/-- The storage of the coupling data. -/
def out (c : Writer V) (s : WriterState V) : Samples V := if c.map.isSome then s.sent else s.prov

/-- Change the storage of the coupling data. -/
def setOut (c : Writer V) (l : Samples V) (s : WriterState V) : WriterState V :=
  if c.map.isSome then { s with sent := l } else { s with prov := l }

/-- `initialize`, ParticipantImpl.cpp:274-279 and 1644-1659: the initial value is stored at time zero and mapped. -/
def init (c : Writer V) (v : V) : Except Err (WriterState V) := do
  let prov ← setSample 0 v []
  match c.map with
  | none => .ok ⟨prov, []⟩
  | some m =>
    let sent ← mapData m none true prov []
    .ok ⟨prov, sent⟩

/-- The samples stored for the time steps of one iteration (time after the step, value written before `advance`):
`handleDataBeforeAdvance`, ParticipantImpl.cpp:475-483. Only the last step ends the window. -/
def kept (c : Writer V) (steps : Samples V) : Samples V := if c.keepSteps then steps else steps.drop (steps.length - 1)

/-- All calls of `advance` in one iteration of a window that starts at `start`, up to and including `sendData`: `handleDataBeforeAdvance`,
ParticipantImpl.cpp:468-494, acceleration (`acc`) where this participant does it and the data is accelerated, and `sendData`. -/
def iterate (c : Writer V) (start : ℚ) (steps : Samples V) (acc : Option (Samples V)) (s : WriterState V) :
    Except Err (WriterState V × Msg V) := do
  let prov ← setSamples (c.kept steps) s.prov
  let sent ← match c.map with
    | none => .ok s.sent
    | some m => mapData m (some start) false prov s.sent
  let s : WriterState V := ⟨prov, sent⟩
  let s := match acc with
    | none => s
    | some new => c.setOut (accelerate start new (c.out s)) s
  let msg ← message c.substeps (c.out s)
  .ok (s, msg)

/-- The rest of `advance` at the end of an iteration. If the window is complete the coupling scheme moves the coupling data
(BaseCouplingScheme.cpp:424-430) and old samples are dropped (`trimOldDataBefore`, ParticipantImpl.cpp:508 and 570-578), `next` is the start of
the next window. Otherwise the samples of this iteration are dropped (`trimSendDataAfter`, ParticipantImpl.cpp:513 and 580-585,
WriteDataContext.cpp:22-31). -/
def finish (c : Writer V) (start next : ℚ) (complete : Bool) (s : WriterState V) : WriterState V :=
  if complete then
    let s := c.setOut (move (c.out s)) s
    ⟨trimBefore next s.prov, trimBefore next s.sent⟩
  else ⟨trimAfter start s.prov, trimAfter start s.sent⟩

end Writer

/-! ## The reader -/

/-- Configuration of the reader of a data. -/
structure Reader (V : Type) where
  /-- the read mapping, if there is one -/
  map : Option (SampleMap V)
  /-- an implicit scheme; then `implicitDataToReceive()` contains the data -/
  implicit : Bool
  /-- the second participant of a serial scheme, which receives the data of a window before it computes the window; this is also `toKeep`,
  SerialCouplingScheme.cpp:217-230 -/
  second : Bool
  /-- `exchangeSubsteps()` of this data -/
  substeps : Bool
  /-- the zero sample of the coupling data -/
  zero : V

/-- `recv` is the storage of the coupling data, `prov` the storage the user reads from. Without mapping they are the same object; then `prov`
is not used. -/
structure ReaderState (V : Type) where
  recv : Samples V
  prov : Samples V

namespace Reader

/-- The storage that `readData` samples, ReadDataContext.cpp:32-42. -/
def readable (c : Reader V) (s : ReaderState V) : Samples V := if c.map.isSome then s.prov else s.recv

/-- `mapInitialReadData` and `mapReadData`, ParticipantImpl.cpp:1695-1729. -/
def mapRead (c : Reader V) (skipZero : Bool) (s : ReaderState V) : Except Err (ReaderState V) :=
  match c.map with
  | none => .ok s
  | some m => do
    let prov ← mapData m none skipZero s.recv s.prov
    .ok { s with prov := prov }

/-- The initial exchange: the coupling scheme first stores zero (BiCouplingScheme.cpp:145-149), then the initial data if the partner sends them, and
zero again otherwise (ParallelCouplingScheme.cpp:35-61, SerialCouplingScheme.cpp:88-107). -/
def initialRecv (c : Reader V) (initial : Option (Msg V)) : Except Err (Samples V) := do
  let recv ← setSample 0 c.zero []
  match initial with
  | some msg => receive c.substeps 0 msg recv
  | none => setSample 0 c.zero recv

/-- `initialize`: after the initial exchange, the second participant of a serial scheme receives the data `first` of the first window, stamped with
the time `stamp` if they come without time (SerialCouplingScheme.cpp:108-116). Then the data are mapped, ParticipantImpl.cpp:287. -/
def init (c : Reader V) (initial : Option (Msg V)) (stamp : ℚ) (first : Option (Msg V)) : Except Err (ReaderState V) := do
  let recv ← c.initialRecv initial
  match first with
  | some msg => do
    let recv ← receive c.substeps stamp msg recv
    c.mapRead true ⟨recv, []⟩
  | none => c.mapRead true ⟨recv, []⟩

/-- The exchange at the end of an iteration, at the time `now`: the first participant of a serial scheme and both participants of a parallel scheme
receive the data of this window, which may be accelerated (`acc`), and move them if the window is complete; the second participant of a serial
scheme moves and then receives the data for its next iteration, for the end of the next window (`stamp`) if this window is complete.
ParallelCouplingScheme.cpp:63-112, SerialCouplingScheme.cpp:119-207. -/
def exchange (c : Reader V) (start now stamp : ℚ) (complete : Bool) (msg : Option (Msg V)) (acc : Option (Samples V)) (recv : Samples V) :
    Except Err (Samples V) :=
  if c.second then
    let recv := if complete then move recv else recv
    match msg with
    | some msg => receive c.substeps (if complete then stamp else now) msg recv
    | none => .ok recv
  else
    match msg with
    | some msg => do
      let recv ← receive c.substeps now msg recv
      let recv := match acc with
        | some new => accelerate start new recv
        | none => recv
      .ok (if complete then move recv else recv)
    | none => .error .assert

/-- `trimReadMappedData`, ParticipantImpl.cpp:1678-1693, ReadDataContext.cpp:70-95. -/
def trimMapped (c : Reader V) (start : ℚ) (complete : Bool) (prov : Samples V) : Samples V :=
  if c.implicit then
    if complete then if c.second then clearExceptLast prov else []
    else trimAfter start prov
  else prov

/-- The call of `advance` that ends an iteration, from the exchange on: `handleDataAfterAdvance`, ParticipantImpl.cpp:496-543. -/
def iterate (c : Reader V) (start now stamp next : ℚ) (complete : Bool) (msg : Option (Msg V)) (acc : Option (Samples V)) (s : ReaderState V) :
    Except Err (ReaderState V) := do
  let recv ← c.exchange start now stamp complete msg acc s.recv
  let s : ReaderState V := { s with recv := recv }
  let s : ReaderState V := if complete then ⟨trimBefore next s.recv, trimBefore next s.prov⟩ else s
  let s : ReaderState V := { s with prov := c.trimMapped start complete s.prov }
  c.mapRead false s

end Reader
end Verif.DataPath
