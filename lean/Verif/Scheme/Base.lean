import Verif.Time.TimeHandler
import Verif.Net.Prog

/-!
# BaseCouplingScheme

Control flow of `/repo/src/cplscheme/BaseCouplingScheme.cpp` for one coupling scheme of one
participant. Times, window and iteration counters, required actions and the exchange hooks are
modelled; data is an abstract payload type `D`. Convergence measurements and acceleration are
inputs (`StepIn.verdict`, `StepIn.accel`), they are modelled separately.
-/

set_option autoImplicit false

namespace Verif

/-- `UNDEFINED_TIME_WINDOW_SIZE`, CouplingScheme.hpp. -/
def undefinedSize : ℚ := -1

/-- Messages between participants. A data exchange (all data of one direction, with or without
substeps) is one message here; its decomposition is modelled in `Verif.Protocol.DataExchange`. -/
inductive Msg (D : Type) where
  | size (dt : ℚ)
  | conv (b : Bool)
  | data (d : D)

/-- Static configuration of a scheme of one participant, BaseCouplingScheme.hpp / constructor
BaseCouplingScheme.cpp:35-90. `none` models the `UNDEFINED_*` / `INFINITE_*` constants. -/
structure Config where
  implicit : Bool
  /-- `doesFirstStep()` -/
  first : Bool
  maxWindows : Option ℕ
  minIter : ℕ
  maxIter : Option ℕ
  /-- `_participantSetsTimeWindowSize`, SerialCouplingScheme.cpp:35-46 -/
  setsSize : Bool := false
  /-- `_participantReceivesTimeWindowSize`, SerialCouplingScheme.cpp:35-46 -/
  receivesSize : Bool := false
  sendsInit : Bool := false
  receivesInit : Bool := false

/-- Mutable state of BaseCouplingScheme. -/
structure State (D : Type) where
  time : TimeHandler
  /-- `_timeWindows` -/
  windows : ℕ
  /-- `_timeWindowSize` -/
  size : ℚ
  /-- `_nextTimeWindowSize` -/
  nextSize : ℚ
  /-- `_iterations` -/
  iters : ℕ
  /-- `_totalIterations` -/
  total : ℕ
  /-- `_hasConverged` -/
  converged : Bool
  /-- `_isTimeWindowComplete` -/
  complete : Bool
  /-- `_hasDataBeenReceived` -/
  received : Bool
  /-- `_requiredActions` -/
  reqInit : Bool
  reqWrite : Bool
  reqRead : Bool
  /-- `_fulfilledActions` -/
  fulInit : Bool
  fulWrite : Bool
  fulRead : Bool
  /-- data to send, as stored at the window end -/
  sendBuf : D
  /-- received data for the window end -/
  recvBuf : D

/-- What happens in one `advance` call besides the control flow: the solver's step size and the
data it wrote, the outcome of the convergence measures, and the acceleration of the send data. -/
structure StepIn (D : Type) where
  dt : ℚ
  value : D
  verdict : Bool
  /-- effect of `performAcceleration` on (send data, receive data) -/
  accel : D × D → D × D

namespace State

variable {D : Type}

/-- BaseCouplingScheme.cpp:432-435 -/
def hasSize (s : State D) : Prop := ¬ equals s.size undefinedSize

instance (s : State D) : Decidable s.hasSize := by unfold hasSize; exact inferInstance

/-- BaseCouplingScheme.cpp:548-552 -/
def ongoing (c : Config) (s : State D) : Prop :=
  (match c.maxWindows with
    | none => True
    | some m => m ≥ s.windows) ∧ ¬ s.time.reachedEnd

instance (c : Config) (s : State D) : Decidable (s.ongoing c) := by
  unfold ongoing; cases c.maxWindows <;> exact inferInstance

/-- BaseCouplingScheme.cpp:535-546 -/
def maxStep (c : Config) (s : State D) : ℚ :=
  if s.ongoing c then
    if s.hasSize then s.time.untilWindowEnd s.size else s.time.untilEnd
  else 0

/-- BaseCouplingScheme.cpp:799-806 -/
def reachedEndOfWindow (s : State D) : Prop :=
  s.hasSize → s.time.reachedEndOfWindow s.size

instance (s : State D) : Decidable s.reachedEndOfWindow := by
  unfold reachedEndOfWindow; exact inferInstance

/-- BaseCouplingScheme.cpp:888-895 -/
def windowEndTime (s : State D) : ℚ :=
  if s.hasSize then s.time.time + s.time.untilWindowEnd s.size
  else s.time.time + s.time.untilEnd

/-- The condition checked in BaseCouplingScheme.cpp:621-632. -/
def actionsDone (s : State D) : Prop :=
  (s.reqInit = true → s.fulInit = true) ∧ (s.reqRead = true → s.fulRead = true) ∧
    (s.reqWrite = true → s.fulWrite = true)

instance (s : State D) : Decidable s.actionsDone := by unfold actionsDone; exact inferInstance

/-- BaseCouplingScheme.cpp:633-634 -/
def clearActions (s : State D) : State D :=
  { s with reqInit := false, reqWrite := false, reqRead := false,
           fulInit := false, fulWrite := false, fulRead := false }

/-- `requiresInitialData` / `requiresWritingCheckpoint` / `requiresReadingCheckpoint` on all
pending actions, ParticipantImpl.cpp:687-718 with BaseCouplingScheme.cpp:571-576: a required action
is marked fulfilled when it is queried. -/
def fulfilAll (s : State D) : State D :=
  { s with fulInit := s.fulInit || s.reqInit, fulWrite := s.fulWrite || s.reqWrite,
           fulRead := s.fulRead || s.reqRead }

end State

open Prog in
/-- `checkCompletenessRequiredActions`, BaseCouplingScheme.cpp:621-635 -/
def checkActions {ι M D α : Type} (s : State D) (k : State D → Prog ι M α) : Prog ι M α :=
  ensure .check s.actionsDone (k s.clearActions)

/-- The scheme-specific virtual functions, as programs. -/
structure Hooks (ι D : Type) where
  initial : State D → Prog ι (Msg D) (State D)
  first : StepIn D → State D → Prog ι (Msg D) (State D)
  second : StepIn D → State D → Prog ι (Msg D) (State D)

section
variable {ι D : Type}
open Prog

/-- `addComputedTime`, BaseCouplingScheme.cpp:453-479, preceded by the argument checks of
ParticipantImpl.cpp:411-416. (`std::isfinite` holds for every rational.) -/
def addComputedTime (c : Config) (s : State D) (dt : ℚ) (k : State D → Prog ι (Msg D) (State D)) :
    Prog ι (Msg D) (State D) :=
  ensure .check (s.ongoing c) <|
  ensure .check (¬ equals dt 0) <|
  ensure .check (dt > 0) <|
  ensure .check (s.hasSize ∨ dt < dblMax) <|
  ensure .check (greaterEquals (s.maxStep c) dt) <|
  k { s with time := s.time.progressBy dt }

/-- `firstExchange`, BaseCouplingScheme.cpp:341-357 -/
def firstExchange (h : Hooks ι D) (i : StepIn D) (s : State D) : Prog ι (Msg D) (State D) :=
  checkActions s fun s =>
  let s := { s with received := false, complete := false }
  if s.reachedEndOfWindow then
    h.first i { s with windows := s.windows + 1 }
  else ret s

/-- The part of `secondExchange` after `exchangeSecondData`, BaseCouplingScheme.cpp:378-420. -/
def finishWindow (c : Config) (s : State D) : Prog ι (Msg D) (State D) :=
  -- 378-409
  (if c.implicit then
    (if s.converged = false then
      ensure .assert (greater s.time.time s.time.start) <|
      ret { s with reqRead := true, windows := s.windows - 1, complete := false,
                    total := s.total + 1, iters := s.iters + 1 }
    else
      ret { s with complete := true, reqWrite := s.reqWrite || decide (s.ongoing c),
                    total := s.total + 1, iters := 1 })
  else
    ret { s with complete := true }).bind fun s =>
  -- 410-412
  ensure .assert (s.ongoing c → s.received = true) <|
  -- 415-420
  (if s.complete = true then
    ensure .assert (s.time.completeOk s.size) <|
    ret { s with time := s.time.completeTimeWindow s.size }
  else
    ret { s with time := s.time.resetProgress }).bind fun s =>
  ret { s with size := s.nextSize }

/-- `secondExchange`, BaseCouplingScheme.cpp:364-422 -/
def secondExchange (c : Config) (h : Hooks ι D) (i : StepIn D) (s : State D) :
    Prog ι (Msg D) (State D) :=
  checkActions s fun s =>
  ensure .assert (s.complete = false) <|
  if s.reachedEndOfWindow then
    (h.second i s).bind (finishWindow c)
  else ret s

/-- One call of `advance(dt)` as far as the coupling scheme is concerned, ParticipantImpl.cpp:407-449:
argument checks, `addComputedTime`, storing the written data (`handleDataBeforeAdvance`), then the
two exchanges. Remeshing and synchronisation between them is empty for a single scheme
(`firstSynchronization`, `secondSynchronization`, BaseCouplingScheme.cpp:335-339, 359-362). -/
def advance (c : Config) (h : Hooks ι D) (i : StepIn D) (s : State D) : Prog ι (Msg D) (State D) :=
  addComputedTime c s i.dt fun s =>
  (firstExchange h i { s with sendBuf := i.value }).bind (secondExchange c h i)

/-- `initialize`, BaseCouplingScheme.cpp:275-307. `_isInitialized`, zero initialisation of the
receive storage and the log files are not part of the control state. -/
def initScheme (c : Config) (h : Hooks ι D) (s : State D) : Prog ι (Msg D) (State D) :=
  h.initial { s with time := s.time.resetTo 0, windows := 1, received := false,
                     reqWrite := s.reqWrite || c.implicit }

/-- State after construction and configuration, BaseCouplingScheme.cpp:44-54 and
`determineInitialSend` 822-828. -/
def constructed (c : Config) (maxTime : Option ℚ) (size : ℚ) (d : D) : State D where
  time := ⟨maxTime, 0, 0⟩
  windows := 1
  size := size
  nextSize := size
  iters := 1
  total := 1
  converged := false
  complete := false
  received := false
  reqInit := c.sendsInit
  reqWrite := false
  reqRead := false
  fulInit := false
  fulWrite := false
  fulRead := false
  sendBuf := d
  recvBuf := d

/-- `doImplicitStep`, BaseCouplingScheme.cpp:843-865. The result of `measureConvergence` is
`i.verdict` unless the iteration is below the minimum (see `Verif.Scheme.Measure`). Acceleration
replaces the send data and, if `all` (`getAccelerationData` of the parallel and multi schemes returns
`_allData`), also the receive data. -/
def doImplicitStep (c : Config) (all : Bool) (i : StepIn D) (s : State D) : State D :=
  let measured := i.verdict && decide (c.minIter ≤ s.iters)
  let conv := if c.maxIter = some s.iters then true else measured
  { s with converged := conv,
           sendBuf := if conv then s.sendBuf else (i.accel (s.sendBuf, s.recvBuf)).1,
           recvBuf := if conv || !all then s.recvBuf else (i.accel (s.sendBuf, s.recvBuf)).2 }

/-- Receive a message and continue if it has the expected kind. A message of another kind would be
misinterpreted by the real transport; the model treats that as a violated assertion. -/
def recvData (src : ι) (s : State D) (k : State D → Prog ι (Msg D) (State D)) :
    Prog ι (Msg D) (State D) :=
  .recv src fun m => match m with
    | .data d => k { s with recvBuf := d }
    | _ => .fail .assert

def recvConv (src : ι) (s : State D) (k : State D → Prog ι (Msg D) (State D)) :
    Prog ι (Msg D) (State D) :=
  .recv src fun m => match m with
    | .conv b => k { s with converged := b }
    | _ => .fail .assert

def recvSize (src : ι) (k : ℚ → Prog ι (Msg D) (State D)) : Prog ι (Msg D) (State D) :=
  .recv src fun m => match m with
    | .size dt => k dt
    | _ => .fail .assert

/-- `notifyDataHasBeenReceived`, BaseCouplingScheme.cpp:499-503 -/
def notify (s : State D) (k : State D → Prog ι (Msg D) (State D)) : Prog ι (Msg D) (State D) :=
  ensure .assert (s.received = false) (k { s with received := true })

end
end Verif
