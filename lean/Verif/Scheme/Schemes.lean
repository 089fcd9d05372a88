import Verif.Scheme.Base

/-!
# Serial and parallel coupling schemes

The exchange functions of `/repo/src/cplscheme/SerialCouplingScheme.cpp` and
`/repo/src/cplscheme/ParallelCouplingScheme.cpp`. The two participants are named by a `Bool`:
`true` is the first participant.
-/

set_option autoImplicit false

namespace Verif

open Prog

variable {D : Type}

/-- The assertion `equals(getTime(), getWindowEndTime())` used in all exchange functions. -/
def State.atWindowEnd (s : State D) : Prop := equals s.time.time s.windowEndTime

instance (s : State D) : Decidable s.atWindowEnd := by unfold State.atWindowEnd; exact inferInstance

namespace Serial

/-- `sendTimeWindowSize`, SerialCouplingScheme.cpp:61-70 -/
def sendSize (c : Config) (peer : Bool) (s : State D)
    (k : State D → Prog Bool (Msg D) (State D)) : Prog Bool (Msg D) (State D) :=
  if c.setsSize then
    .send peer (.size s.time.progress)
      (k { s with size := s.time.progress, nextSize := undefinedSize })
  else k s

/-- `receiveAndSetTimeWindowSize`, SerialCouplingScheme.cpp:72-89 -/
def receiveSize (c : Config) (peer : Bool) (s : State D)
    (k : State D → Prog Bool (Msg D) (State D)) : Prog Bool (Msg D) (State D) :=
  if c.receivesSize then
    recvSize peer fun dt =>
      ensure .assert (¬ equals dt undefinedSize) <|
      ensure .check (s.hasSize ∧ c.implicit = true ∧ s.converged = false → dt = s.size) <|
      k { s with nextSize := dt }
  else k s

/-- `exchangeInitialData`, SerialCouplingScheme.cpp:91-119 (`initializeWithZeroInitialData` leaves
the payload unchanged in the model). -/
def initial (c : Config) (s : State D) : Prog Bool (Msg D) (State D) :=
  if c.first then
    let sendPart := fun (s : State D) =>
      if c.sendsInit then .send false (.data s.sendBuf) (ret s)
      else (ret s : Prog Bool (Msg D) (State D))
    if c.receivesInit then recvData false s fun s => notify s sendPart else sendPart s
  else
    let rest := fun (s : State D) =>
      receiveSize c true s fun s =>
      recvData true { s with size := s.nextSize } fun s =>
      notify s ret
    let recvPart := fun (s : State D) =>
      if c.receivesInit then recvData true s rest else rest s
    if c.sendsInit then .send true (.data s.sendBuf) (recvPart s) else recvPart s

/-- `exchangeFirstData`, SerialCouplingScheme.cpp:121-152 -/
def first (c : Config) (i : StepIn D) (s : State D) : Prog Bool (Msg D) (State D) :=
  if c.first then
    sendSize c false s fun s =>
    ensure .assert s.atWindowEnd <|
    .send false (.data s.sendBuf) (ret s)
  else if c.implicit then
    let s := doImplicitStep c false i s
    .send true (.conv s.converged) <|
    ensure .assert s.atWindowEnd <|
    .send true (.data s.sendBuf) (ret s)
  else
    ensure .assert s.atWindowEnd <|
    .send true (.data s.sendBuf) (ret s)

/-- `exchangeSecondData`, SerialCouplingScheme.cpp:154-209. `moveToNextWindow` and
`storeIteration` act on data storage only and are modelled with the waveforms. -/
def second (c : Config) (_ : StepIn D) (s : State D) : Prog Bool (Msg D) (State D) :=
  if c.first then
    if c.implicit then
      recvConv false s fun s =>
      ensure .assert s.atWindowEnd <|
      recvData false s fun s => notify s ret
    else
      ensure .assert s.atWindowEnd <|
      recvData false s fun s => notify s ret
  else if s.ongoing c ∨ (c.implicit = true ∧ s.converged = false) then
    receiveSize c true s fun s =>
    ensure .assert s.atWindowEnd <|
    recvData true s fun s => notify s ret
  else ret s

def hooks (c : Config) : Hooks Bool D := ⟨initial c, first c, second c⟩

end Serial

namespace Parallel

/-- `exchangeInitialData`, ParallelCouplingScheme.cpp:35-60 -/
def initial (c : Config) (s : State D) : Prog Bool (Msg D) (State D) :=
  if c.first then
    let recvPart := fun (s : State D) =>
      if c.receivesInit then recvData false s fun s => notify s ret
      else (ret s : Prog Bool (Msg D) (State D))
    if c.sendsInit then .send false (.data s.sendBuf) (recvPart s) else recvPart s
  else
    let sendPart := fun (s : State D) =>
      if c.sendsInit then .send true (.data s.sendBuf) (ret s)
      else (ret s : Prog Bool (Msg D) (State D))
    if c.receivesInit then recvData true s fun s => notify s sendPart else sendPart s

/-- `exchangeFirstData`, ParallelCouplingScheme.cpp:62-73 -/
def first (c : Config) (_ : StepIn D) (s : State D) : Prog Bool (Msg D) (State D) :=
  ensure .assert s.atWindowEnd <|
  if c.first then .send false (.data s.sendBuf) (ret s)
  else recvData true s fun s => notify s ret

/-- `exchangeSecondData`, ParallelCouplingScheme.cpp:75-112 -/
def second (c : Config) (i : StepIn D) (s : State D) : Prog Bool (Msg D) (State D) :=
  ensure .assert s.atWindowEnd <|
  if c.first then
    if c.implicit then
      recvConv false s fun s => recvData false s fun s => notify s ret
    else recvData false s fun s => notify s ret
  else if c.implicit then
    let s := doImplicitStep c true i s
    .send true (.conv s.converged) <| .send true (.data s.sendBuf) (ret s)
  else .send true (.data s.sendBuf) (ret s)

def hooks (c : Config) : Hooks Bool D := ⟨initial c, first c, second c⟩

end Parallel
end Verif
