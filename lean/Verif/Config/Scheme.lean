import Mathlib.Data.List.Sort
import Mathlib.Data.Rat.Defs
import Mathlib.Algebra.Order.Ring.Rat
import Mathlib.Tactic.Linarith

/-!
# Coupling schemes from the configuration (C108, C109)

Model of `/repo/src/cplscheme/config/CouplingSchemeConfiguration.cpp` and of the functions of the coupling schemes it calls: `BaseCouplingScheme::addCouplingData`,
`addConvergenceMeasure`, the constructor of `BaseCouplingScheme`, `BiCouplingScheme::addDataToSend` and `addDataToReceive`, and those of `MultiCouplingScheme`.

Participants and data are numbers. A data belongs to one mesh, so the number of a data (its ID) stands for the names of mesh and data. What the code looks up elsewhere is a
parameter: which exchanges are refused because of direct access, and because of the waveform degree of the receiver.
-/

set_option autoImplicit false

namespace Verif.Config.Scheme

/-- How the configuration can fail. -/
inductive Err where
  /-- `PRECICE_CHECK`, `PRECICE_ERROR` -/
  | check
  /-- `PRECICE_ASSERT` -/
  | assert
  /-- undefined behaviour: an element of a vector that does not exist -/
  | undef
deriving DecidableEq

/-- `Config::Exchange`, CouplingSchemeConfiguration.hpp:150-157. -/
structure Exchange where
  data : ℕ
  src : ℕ
  dst : ℕ
  init : Bool
  substeps : Bool
deriving DecidableEq

/-- `CouplingData`, as far as it is configured. -/
structure CplData where
  data : ℕ
  init : Bool
  substeps : Bool
  /-- `Direction::Send` -/
  sent : Bool
deriving DecidableEq

/-- `DataMap`, a `std::map` from the ID: the list of its values in the order of the IDs. `emplace` does nothing if the key exists. -/
def emplace (d : CplData) : List CplData → List CplData
  | [] => [d]
  | e :: l => if d.data < e.data then d :: e :: l else if d.data = e.data then e :: l else e :: emplace d l

/-- `hasExchange`, CouplingSchemeConfiguration.hpp:163-168. -/
def hasExchange (l : List Exchange) (e : Exchange) : Bool := l.any fun x => decide (x.src = e.src ∧ x.dst = e.dst ∧ x.data = e.data)

/-- The callback for the tag `exchange`, CouplingSchemeConfiguration.cpp:260-290. -/
def addExchange (l : List Exchange) (e : Exchange) : Except Err (List Exchange) := if hasExchange l e then .error .check else .ok (l ++ [e])

/-- All tags `exchange` of a scheme. -/
def addExchanges : List Exchange → List Exchange → Except Err (List Exchange)
  | l, [] => .ok l
  | l, e :: es =>
    match addExchange l e with
    | .error x => .error x
    | .ok l => addExchanges l es

/-! ## Data of a scheme -/

/-- `BaseCouplingScheme::addCouplingData`, BaseCouplingScheme.cpp:228-251: the data and the new `_allData`. -/
def addCouplingData (all : List CplData) (d : CplData) : Except Err (CplData × List CplData) :=
  match all.find? fun x => x.data = d.data with
  | none => .ok (d, emplace d all)
  | some x =>
    if x.sent = d.sent ∧ d.sent = true ∧ x.substeps = d.substeps ∧ x.init = d.init then .ok (x, all) else .error .check

/-- `BiCouplingScheme`, the maps of data. -/
structure Bi where
  all : List CplData
  send : List CplData
  recv : List CplData

/-- `BiCouplingScheme::addDataToSend`, BiCouplingScheme.cpp:50-66. -/
def Bi.addSend (s : Bi) (e : Exchange) : Except Err Bi :=
  match addCouplingData s.all ⟨e.data, e.init, e.substeps, true⟩ with
  | .error x => .error x
  | .ok (d, all) => if s.send.any fun x => decide (x.data = e.data) then .error .check else .ok { s with all := all, send := emplace d s.send }

/-- `BiCouplingScheme::addDataToReceive`, BiCouplingScheme.cpp:68-84. -/
def Bi.addRecv (s : Bi) (e : Exchange) : Except Err Bi :=
  match addCouplingData s.all ⟨e.data, e.init, e.substeps, false⟩ with
  | .error x => .error x
  | .ok (d, all) => if s.recv.any fun x => decide (x.data = e.data) then .error .check else .ok { s with all := all, recv := emplace d s.recv }

/-- What the code looks up elsewhere: exchanges refused because the sender accesses the mesh directly and should initialize the data, and because the waveform degree of the
receiver does not fit to the setting for substeps (`checkSubstepExchangeWaveformDegree`, 996-1021). -/
structure Lookup where
  direct : Exchange → Bool
  degree : Exchange → Bool

/-- `addDataToBeExchanged`, CouplingSchemeConfiguration.cpp:1023-1068, the body of the loop. -/
def Bi.addOne (k : Lookup) (participants : List ℕ) (accessor : ℕ) (s : Bi) (e : Exchange) : Except Err Bi :=
  if e.dst = e.src then .error .check
  else if e.src ∉ participants ∨ e.dst ∉ participants then .error .check
  else if k.direct e then .error .check
  else if e.src = accessor then s.addSend e
  else if e.dst = accessor then
    if k.degree e then .error .check else s.addRecv e
  else .error .assert

/-- The loop. -/
def Bi.addAll (k : Lookup) (participants : List ℕ) (accessor : ℕ) : Bi → List Exchange → Except Err Bi
  | s, [] => .ok s
  | s, e :: es =>
    match s.addOne k participants accessor e with
    | .error x => .error x
    | .ok s => Bi.addAll k participants accessor s es

/-- `_sendsInitializedData`, BaseCouplingScheme.cpp:822-841. -/
def Bi.sendsInitial (s : Bi) : Bool := s.send.any CplData.init

/-- `_receivesInitializedData` -/
def Bi.recvsInitial (s : Bi) : Bool := s.recv.any CplData.init

/-- `addDataToBeExchanged` for a new scheme. -/
def Bi.build (k : Lookup) (first second accessor : ℕ) (exs : List Exchange) : Except Err Bi := Bi.addAll k [first, second] accessor ⟨[], [], []⟩ exs

/-! ## Multi coupling -/

/-- `MultiCouplingScheme`, the maps of data and the participants that send or get initial data. -/
structure Multi where
  all : List CplData
  send : ℕ → List CplData
  recv : ℕ → List CplData
  sendInitial : ℕ → Bool
  recvInitial : ℕ → Bool

/-- Changes one entry of a map. -/
def update {α : Type} (f : ℕ → α) (i : ℕ) (v : α) : ℕ → α := fun j => if j = i then v else f j

/-- `MultiCouplingScheme::addDataToSend`, MultiCouplingScheme.cpp:176-190. -/
def Multi.addSend (s : Multi) (e : Exchange) : Except Err Multi :=
  match addCouplingData s.all ⟨e.data, e.init, e.substeps, true⟩ with
  | .error x => .error x
  | .ok (d, all) =>
    .ok { s with all := all, send := update s.send e.dst (emplace d (s.send e.dst)), sendInitial := if e.init then update s.sendInitial e.dst true else s.sendInitial }

/-- `MultiCouplingScheme::addDataToReceive`, MultiCouplingScheme.cpp:192-206. -/
def Multi.addRecv (s : Multi) (e : Exchange) : Except Err Multi :=
  match addCouplingData s.all ⟨e.data, e.init, e.substeps, false⟩ with
  | .error x => .error x
  | .ok (d, all) =>
    .ok { s with all := all, recv := update s.recv e.src (emplace d (s.recv e.src)), recvInitial := if e.init then update s.recvInitial e.src true else s.recvInitial }

/-- `addMultiDataToBeExchanged`, CouplingSchemeConfiguration.cpp:1071-1103, the body of the loop. The controller is one of the participants. -/
def Multi.addOne (participants : List ℕ) (accessor : ℕ) (s : Multi) (e : Exchange) : Except Err Multi :=
  if e.dst = e.src then .error .check
  else if e.src ∉ participants ∨ e.dst ∉ participants then .error .check
  else if e.src = accessor then s.addSend e
  else if e.dst = accessor then s.addRecv e
  else .ok s

/-- The loop. -/
def Multi.addAll (participants : List ℕ) (accessor : ℕ) : Multi → List Exchange → Except Err Multi
  | s, [] => .ok s
  | s, e :: es =>
    match s.addOne participants accessor e with
    | .error x => .error x
    | .ok s => Multi.addAll participants accessor s es

/-- `addMultiDataToBeExchanged` for a new scheme. -/
def Multi.build (participants : List ℕ) (accessor : ℕ) (exs : List Exchange) : Except Err Multi :=
  Multi.addAll participants accessor ⟨[], fun _ => [], fun _ => [], fun _ => false, fun _ => false⟩ exs

end Verif.Config.Scheme
