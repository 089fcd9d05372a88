import Mathlib.Data.List.Basic
import Mathlib.Data.Int.Notation
import Mathlib.Data.Nat.Notation

/-!
# Profiling (C130)

Model of `/repo/src/profiling/Event.cpp`, `/repo/src/profiling/EventUtils.cpp`, the use of both in
`/repo/src/precice/impl/ParticipantImpl.cpp` and the callbacks of
`/repo/src/profiling/config/ProfilingConfiguration.cpp`.

Simplifications: one process; builds without `PRECICE_COMPRESSION`; a file is the list of the records written to it,
their text (`B{}:{}` and so on, EventUtils.cpp:255-284) and the header are left out; opening and writing an open file
succeed; times are the microseconds since the registry was initialized, as the clock gives them.
-/

set_option autoImplicit false

namespace Verif.Profiling

/-- `profiling::Mode`, EventUtils.hpp:24-30 -/
inductive Mode where
  | off | fundamental | api | all
deriving DecidableEq

/-- `profiling::Group`, Event.hpp:15-19. The default group is called `other`. -/
inductive Group where
  | other | fundamental | api
deriving DecidableEq

/-- A record, `PendingEntry`, EventUtils.hpp:37-71 -/
inductive Entry where
  | start (eid : ℕ) (time : ℤ)
  | stop (eid : ℕ) (time : ℤ)
  | data (eid : ℕ) (time : ℤ) (did : ℕ) (value : ℤ)
  | name (name : String) (id : ℕ)
deriving DecidableEq

/-- `std::holds_alternative<StartEntry>` -/
def Entry.isStart : Entry → Bool
  | .start _ _ => true
  | _ => false

/-- `EventRegistry`, EventUtils.hpp:152-203, a single object per process. The ids of `_nameDict` are the sizes of the
dictionary when a name is added, EventUtils.cpp:319-331: the dictionary is the list of the names in this order. -/
structure Reg where
  mode : Mode
  /-- `_size > 1` -/
  parallel : Bool
  /-- `precice::syncMode`, a global variable -/
  sync : Bool
  globalId : ℕ
  dict : List String
  queue : List Entry
  queueMax : ℕ
  initialized : Bool
  finalized : Bool
  /-- `_isBackendRunning` -/
  running : Bool
  /-- is `_output` open -/
  isOpen : Bool
  /-- what the open file contains -/
  file : List Entry
  /-- the files which have been closed, with their contents -/
  closed : List (List Entry)
  /-- how often the clock has been read -/
  reads : ℕ

/-- The registry at the start of the process, EventUtils.hpp:152-203 -/
def Reg.fresh : Reg where
  mode := .fundamental
  parallel := false
  sync := false
  globalId := 0
  dict := []
  queue := []
  queueMax := 0
  initialized := false
  finalized := false
  running := false
  isOpen := false
  file := []
  closed := []
  reads := 0

/-- `EventRegistry::accepting`, EventUtils.hpp:129-142 -/
def accepting : Mode → Group → Bool
  | .off, _ => false
  | .all, _ => true
  | .fundamental, g => g == .fundamental
  | .api, g => g == .fundamental || g == .api

/-- `Event::Clock::now()` -/
def now (clk : ℕ → ℤ) (r : Reg) : ℤ × Reg :=
  (clk r.reads, { r with reads := r.reads + 1 })

/-- `_writeQueue.emplace_back` -/
def push (e : Entry) (r : Reg) : Reg :=
  { r with queue := r.queue ++ [e] }

/-- `EventRegistry::nameToID`, EventUtils.cpp:319-331 -/
def nameToID (n : String) (r : Reg) : ℕ × Reg :=
  if n ∈ r.dict then
    (r.dict.idxOf n, r)
  else
    (r.dict.length, push (.name n r.dict.length) { r with dict := r.dict ++ [n] })

/-- `EventRegistry::flush`, EventUtils.cpp:287-318. A stream which is not open has no failure bit before the first
output: the assertion of line 292 passes, `write` sets the bad bit and nothing is written. The queue is cleared in any
case, line 314. -/
def flush (r : Reg) : Reg :=
  if r.mode = .off ∨ r.queue = [] then
    r
  else if r.isOpen then
    { r with file := r.file ++ r.queue, queue := [] }
  else
    { r with queue := [] }

/-- `EventRegistry::put`, EventUtils.cpp:225-236 -/
def put (e : Entry) (r : Reg) : Reg :=
  let skipFlush := r.queueMax != 1 && e.isStart
  let r := push e r
  if !skipFlush && decide (0 < r.queueMax) && decide (r.queueMax < r.queue.length) then
    flush r
  else
    r

/-- `EventRegistry::putCritical`, EventUtils.cpp:238-242 -/
def putCritical (e : Entry) (r : Reg) : Reg :=
  push e r

/-- `EventRegistry::startBackend`, EventUtils.cpp:119-173. Opening a file that exists overwrites it; a file of another
participant, rank or size has another name. -/
def startBackend (r : Reg) : Reg :=
  if r.mode = .off then
    r
  else
    { r with isOpen := true, file := [], running := true }

/-- `EventRegistry::stopBackend`, EventUtils.cpp:175-206 -/
def stopBackend (clk : ℕ → ℤ) (r : Reg) : Reg :=
  if r.mode = .off ∨ r.running = false then
    r
  else
    let t := now clk r
    let r := flush (put (.stop r.globalId t.1) t.2)
    { r with closed := r.closed ++ [r.file], file := [], isOpen := false, dict := [], running := false }

/-- `EventRegistry::initialize`, EventUtils.cpp:63-85 -/
def initRegistry (clk : ℕ → ℤ) (parallel : Bool) (r : Reg) : Reg :=
  let t := now clk r
  let r := { t.2 with parallel := parallel, queue := [], dict := [] }
  let g := nameToID "_GLOBAL" r
  let r := push (.start g.1 t.1) { g.2 with globalId := g.1 }
  let r := { r with initialized := true, finalized := false }
  if r.running then stopBackend clk r else r

/-- `EventRegistry::finalize`, EventUtils.cpp:208-218 -/
def finalizeRegistry (clk : ℕ → ℤ) (r : Reg) : Reg :=
  if r.finalized || !r.initialized then
    r
  else
    { stopBackend clk r with initialized := false, finalized := true }

/-- The settings of `<profiling />`, ProfilingConfiguration.cpp:33-68 and the defaults of ProfilingConfiguration.hpp.
The directory is left out. -/
structure Tag where
  mode : Mode := .fundamental
  flushEvery : ℤ := 50
  synchronize : Bool := false

/-- `applyDefaults`, ProfilingConfiguration.cpp:91-104 -/
def applyDefaults (r : Reg) : Reg :=
  { r with sync := false, queueMax := 50, mode := .fundamental }

/-- `ProfilingConfiguration::xmlTagCallback`, ProfilingConfiguration.cpp:69-89. `none` is the error of the check. The
global variable is set before the check. -/
def tagCallback (t : Tag) (r : Reg) : Option Reg :=
  if 0 ≤ t.flushEvery then
    some { r with sync := t.synchronize, queueMax := t.flushEvery.toNat, mode := t.mode }
  else
    none

/-- `Event`, Event.hpp:40-110 -/
structure Event where
  eid : ℕ
  /-- `_sid`, -1 is `none` -/
  sid : Option ℕ
  running : Bool
  group : Group
  synchronize : Bool

/-- `Event::start`, Event.cpp:28-49. `IntraComm::willSynchronize` is `syncMode`, IntraComm.cpp:368-371. The assertion
that `_sid` is set holds by construction: without it the id would be -1. -/
def Event.start (clk : ℕ → ℤ) (e : Event) (r : Reg) : Event × Reg :=
  let e := { e with running := true }
  if !accepting r.mode e.group then
    (e, r)
  else if e.synchronize && r.parallel && r.sync then
    match e.sid with
    | none => (e, r)
    | some sid =>
      let t := now clk r
      let r := putCritical (.start sid t.1) t.2
      let t := now clk r
      let r := putCritical (.stop sid t.1) t.2
      (e, put (.start e.eid t.1) r)
  else
    let t := now clk r
    (e, put (.start e.eid t.1) t.2)

/-- `Event::Event`, Event.cpp:8-19 -/
def Event.create (clk : ℕ → ℤ) (n : String) (g : Group) (synchronize : Bool) (r : Reg) : Event × Reg :=
  let i := nameToID n r
  if synchronize && i.2.parallel then
    let s := nameToID (n ++ ".sync") i.2
    Event.start clk { eid := i.1, sid := some s.1, running := false, group := g, synchronize := synchronize } s.2
  else
    Event.start clk { eid := i.1, sid := none, running := false, group := g, synchronize := synchronize } i.2

/-- `Event::stop`, Event.cpp:51-61 -/
def Event.stop (clk : ℕ → ℤ) (e : Event) (r : Reg) : Event × Reg :=
  let t := now clk r
  ({ e with running := false },
    if accepting t.2.mode e.group then put (.stop e.eid t.1) t.2 else t.2)

/-- `Event::~Event`, Event.cpp:21-26 -/
def Event.destroy (clk : ℕ → ℤ) (e : Event) (r : Reg) : Reg :=
  if e.running then (e.stop clk r).2 else r

/-- `Event::addData`, Event.cpp:63-74 -/
def Event.addData (clk : ℕ → ℤ) (e : Event) (kv : String × ℤ) (r : Reg) : Reg :=
  let t := now clk r
  if accepting t.2.mode e.group then
    let d := nameToID kv.1 t.2
    put (.data e.eid t.1 d.1 kv.2) d.2
  else
    t.2

/-- The events of the code called by a function of the API: in sequence and nested, each is created, gets data, and is
stopped at the end of its scope. The code is not modelled further: the theorems hold for all forests. -/
inductive Forest where
  | nil
  | node (name : String) (group : Group) (synchronize : Bool) (data : List (String × ℤ)) (inner rest : Forest)

/-- The events of a forest, recorded -/
def runForest (clk : ℕ → ℤ) : Forest → Reg → Reg
  | .nil, r => r
  | .node n g s data inner rest, r =>
    let e := Event.create clk n g s r
    let r := data.foldl (fun r kv => e.1.addData clk kv r) e.2
    let r := runForest clk inner r
    let r := (e.1.stop clk r).2
    runForest clk rest r

/-- `ParticipantImpl::State` -/
inductive Phase where
  | constructed | initialized | finalized
deriving DecidableEq

/-- The part of a participant that has to do with profiling, ParticipantImpl.hpp:509-512 -/
structure Participant where
  reg : Reg
  phase : Phase
  solverInit : Option Event
  solverAdvance : Option Event
  userEvents : List Event

/-- How the participant is built and run -/
structure Env where
  /-- the readings of the clock -/
  clk : ℕ → ℤ
  /-- preCICE is built with MPI -/
  mpi : Bool
  /-- the participant has several ranks -/
  parallel : Bool
  /-- the tag `<profiling />`, if there is one -/
  tag : Option Tag

/-- `ParticipantImpl::configure` as far as it records events: reading the file, ConfigParser.cpp:170-192, and the
callback of the tag, which comes after it -/
def configure (env : Env) (r : Reg) : Option Reg :=
  let e := Event.create env.clk "readConfiguration" .fundamental false r
  let r := (e.1.stop env.clk e.2).2
  match env.tag with
  | none => some r
  | some t => tagCallback t r

/-- the beginning of `ParticipantImpl::ParticipantImpl`, ParticipantImpl.cpp:117-147: the events `construction` and
`configure` and the registry -/
def beforeConfigure (env : Env) (r : Reg) : Event × Event × Reg :=
  let r := applyDefaults (initRegistry env.clk env.parallel r)
  let e := Event.create env.clk "construction" .fundamental false r
  let r :=
    if env.mpi then
      let e3 := Event.create env.clk "com.initializeMPI" .fundamental false e.2
      (e3.1.stop env.clk e3.2).2
    else
      e.2
  let e1 := Event.create env.clk "configure" .fundamental false r
  (e.1, e1.1, e1.2)

/-- `ParticipantImpl::ParticipantImpl`, ParticipantImpl.cpp:117-163. `none` is the error of a check. -/
def construct (env : Env) (r : Reg) : Option Participant :=
  let b := beforeConfigure env r
  match configure env b.2.2 with
  | none => none
  | some r =>
    let r := (b.2.1.stop env.clk r).2
    let e2 := Event.create env.clk "startProfilingBackend" .other false r
    let r := startBackend e2.2
    let r := (e2.1.stop env.clk r).2
    let r :=
      if env.parallel then
        runForest env.clk (.node "com.initializeIntraCom" .fundamental false [] .nil .nil) r
      else
        r
    let r := (b.1.stop env.clk r).2
    let i := Event.create env.clk "solver.initialize" .fundamental true r
    some { reg := i.2, phase := .constructed, solverInit := some i.1, solverAdvance := none, userEvents := [] }

/-- The calls of a solver. `inner` are the events of the code below. The other functions of the API, `api`, are only
some events, mostly one of the group `API`. -/
inductive Call where
  | startSection (name : String)
  | stopSection
  | api (inner : Forest)
  | initialize (data : List (String × ℤ)) (inner : Forest)
  | advance (inner : Forest)
  | finalize

/-- What a call can lead to besides a new state -/
inductive Err where
  /-- the error of a `PRECICE_CHECK` -/
  | check
  /-- a null pointer is dereferenced -/
  | null
deriving DecidableEq

/-- `std::unique_ptr<Event>::reset` -/
def reset (clk : ℕ → ℤ) (e : Option Event) (r : Reg) : Reg :=
  match e with
  | none => r
  | some e => e.destroy clk r

/-- `while (!_userEvents.empty()) _userEvents.pop_back();`, ParticipantImpl.cpp:593-596 -/
def popAll (clk : ℕ → ℤ) (es : List Event) (r : Reg) : Reg :=
  es.reverse.foldl (fun r e => e.destroy clk r) r

/-- The calls, as far as they record events. The checks that have nothing to do with events are left out, those of
`initialize` and `finalize` concern the state. `startProfilingSection` ParticipantImpl.cpp:1958-1964,
`stopLastProfilingSection` 1966-1970, `initialize` 248-300, `advance` 392-466 (the event is stopped in line 403,
before the state is checked), `finalize` 587-637. -/
def call (clk : ℕ → ℤ) (c : Call) (p : Participant) : Except Err Participant :=
  match c with
  | .startSection n =>
    if '/' ∈ n.toList then
      .error .check
    else
      let e := Event.create clk n .fundamental false p.reg
      .ok { p with reg := e.2, userEvents := p.userEvents ++ [e.1] }
  | .stopSection =>
    match p.userEvents.getLast? with
    | none => .error .check
    | some e => .ok { p with reg := e.destroy clk p.reg, userEvents := p.userEvents.dropLast }
  | .api f => .ok { p with reg := runForest clk f p.reg }
  | .initialize data inner =>
    if p.phase ≠ .constructed then
      .error .check
    else if p.userEvents ≠ [] then
      .error .check
    else
      let r := reset clk p.solverInit p.reg
      let r := runForest clk (.node "initialize" .fundamental true data inner .nil) r
      let a := Event.create clk "solver.advance" .fundamental true r
      .ok { reg := a.2, phase := .initialized, solverInit := none, solverAdvance := some a.1, userEvents := [] }
  | .advance inner =>
    if p.userEvents ≠ [] then
      .error .check
    else
      match p.solverAdvance with
      | none => .error .null
      | some a =>
        let a := a.stop clk p.reg
        if p.phase ≠ .initialized then
          .error .check
        else
          let r := runForest clk (.node "advance" .fundamental true [] inner .nil) a.2
          let a := a.1.start clk r
          .ok { p with reg := a.2, solverAdvance := some a.1 }
  | .finalize =>
    if p.phase = .finalized then
      .error .check
    else
      let r := popAll clk p.userEvents p.reg
      let r := reset clk p.solverAdvance r
      let r := runForest clk (.node "finalize" .fundamental false [] .nil .nil) r
      .ok { p with reg := finalizeRegistry clk r, phase := .finalized, solverAdvance := none, userEvents := [] }

/-- Several calls -/
def calls (clk : ℕ → ℤ) : List Call → Participant → Except Err Participant
  | [], p => .ok p
  | c :: cs, p =>
    match call clk c p with
    | .error e => .error e
    | .ok p => calls clk cs p

/-- The destructor of a finalized participant: the event `solver.initialize`, if it is still there,
ParticipantImpl.hpp:509 -/
def destroy (clk : ℕ → ℤ) (p : Participant) : Reg :=
  reset clk p.solverInit p.reg

end Verif.Profiling
