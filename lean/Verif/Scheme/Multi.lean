import Verif.Scheme.Schemes
import Verif.Net.Rounds

/-!
# Multi coupling scheme

The exchange functions of `/repo/src/cplscheme/MultiCouplingScheme.cpp` for any number of
participants. Participants are named by `ι`; the payload of a state is one value per partner
(`ι → E`): `sendBuf j` is the data sent to `j`, `recvBuf j` the data received from `j`.
-/

set_option autoImplicit false

namespace Verif

open Prog Function

variable {ι E : Type} [DecidableEq ι]

/-- Configuration of one participant of a multi coupling, MultiCouplingScheme.cpp:22-38, 176-204 and
CouplingSchemeConfiguration.cpp:915-958. The lists have the order of the `std::map`s. -/
structure MultiCfg (ι : Type) where
  /-- `first = false` is the controller: `doesFirstStep()` is `!isController`, line 33 -/
  base : Config
  /-- `_controller` -/
  ctrl : ι
  /-- keys of `_m2ns` -/
  m2ns : List ι
  /-- keys of `_sendDataVector` -/
  sendTo : List ι
  /-- keys of `_receiveDataVector` -/
  recvFrom : List ι
  /-- `sendsInitializedDataTo`, 117-120 -/
  initTo : ι → Bool
  /-- `receivesInitializedDataFrom`, 122-125 -/
  initFrom : ι → Bool

namespace Multi

/-- The data message for `j`. -/
def dataMsg (s : State (ι → E)) (j : ι) : ι × Msg (ι → E) := (j, .data fun _ => s.sendBuf j)

/-- `receiveData` for several partners in order. -/
def recvDatas : List ι → State (ι → E) → (State (ι → E) → Prog ι (Msg (ι → E)) (State (ι → E))) →
    Prog ι (Msg (ι → E)) (State (ι → E))
  | [], s, k => k s
  | j :: js, s, k => .recv j fun m => match m with
    | .data d => recvDatas js { s with recvBuf := update s.recvBuf j (d j) } k
    | _ => .fail .assert

/-- `exchangeInitialData`, MultiCouplingScheme.cpp:80-115 (`initializeWithZeroInitialData` leaves the
payload unchanged in the model). -/
def initial (c : MultiCfg ι) (s : State (ι → E)) : Prog ι (Msg (ι → E)) (State (ι → E)) :=
  if c.base.first then
    sendL ((c.sendTo.filter c.initTo).map (dataMsg s)) <|
    recvDatas (c.recvFrom.filter c.initFrom) s fun s => notify s ret
  else
    recvDatas (c.recvFrom.filter c.initFrom) s fun s => notify s fun s =>
    sendL ((c.sendTo.filter c.initTo).map (dataMsg s)) (ret s)

/-- `exchangeFirstData`, MultiCouplingScheme.cpp:127-145 -/
def first (c : MultiCfg ι) (_ : StepIn (ι → E)) (s : State (ι → E)) :
    Prog ι (Msg (ι → E)) (State (ι → E)) :=
  ensure .assert s.atWindowEnd <|
  if c.base.first then sendL (c.sendTo.map (dataMsg s)) (ret s)
  else recvDatas c.recvFrom s fun s => notify s ret

/-- `exchangeSecondData`, MultiCouplingScheme.cpp:147-174. `moveToNextWindow` and `storeIteration`
act on data storage only. -/
def second (c : MultiCfg ι) (i : StepIn (ι → E)) (s : State (ι → E)) :
    Prog ι (Msg (ι → E)) (State (ι → E)) :=
  ensure .assert s.atWindowEnd <|
  if c.base.first then
    recvConv c.ctrl s fun s => recvDatas c.recvFrom s fun s => notify s ret
  else
    let s := doImplicitStep c.base true i s
    sendL (c.m2ns.map fun j => (j, .conv s.converged)) <|
    sendL (c.sendTo.map (dataMsg s)) (ret s)

def hooks (c : MultiCfg ι) : Hooks ι (ι → E) := ⟨initial c, first c, second c⟩

end Multi
end Verif
