import Verif.Api.DataPathSteps

/-!
# Actions on the path of coupling data (C122)

Model of when `ParticipantImpl` (`/repo/src/precice/impl/ParticipantImpl.cpp`) performs data actions and which samples they change. An action is
a function `V → V` of the values of one sample; multiplication and division by the area are such functions (`Verif.Misc.ScaleByArea`), and a Python action
without source data is one as well. The storages are those of `Verif.DataPath`. Simplifications: one action per data, on the coupling data at the writer
(`write-mapping-post`) and on the data the user reads at the reader (`read-mapping-post`); summation has its own model (`Verif.Misc.Summation`).
-/

set_option autoImplicit false

namespace Verif.DataPath

variable {V : Type}

/-- The loop of `performAction`, ScaleByAreaAction.cpp:31-71, PythonAction.cpp:97-113: the loop goes over the samples of the storage itself; each is
read, changed, and set at its time. Reading past the end cannot happen because `setSampleAtTime` does not change the number of samples here. -/
def perform (f : V → V) (l : Samples V) : Except Err (Samples V) :=
  (List.range l.length).foldlM (fun l i => match l[i]? with
    | some s => setSample s.1 (f s.2) l
    | none => .error .assert) l

namespace Writer

/-- `initialize` with an action: ParticipantImpl.cpp:274-281. -/
def initAct (c : Writer V) (f : V → V) (v : V) : Except Err (WriterState V) := do
  let s ← c.init v
  let out ← perform f (c.out s)
  .ok (c.setOut out s)

/-- As `Writer.iterate`, with the action after the mapping and before the exchange: ParticipantImpl.cpp:490-493. -/
def iterateAct (c : Writer V) (f : V → V) (start : ℚ) (steps : Samples V) (acc : Option (Samples V)) (s : WriterState V) :
    Except Err (WriterState V × Msg V) := do
  let prov ← setSamples (c.kept steps) s.prov
  let sent ← match c.map with
    | none => .ok s.sent
    | some m => mapData m (some start) false prov s.sent
  let s : WriterState V := ⟨prov, sent⟩
  let out ← perform f (c.out s)
  let s := c.setOut out s
  let s := match acc with
    | none => s
    | some new => c.setOut (accelerate start new (c.out s)) s
  let msg ← message c.substeps (c.out s)
  .ok (s, msg)

end Writer

namespace Reader

/-- Change the storage that `readData` samples. -/
def setReadable (c : Reader V) (l : Samples V) (s : ReaderState V) : ReaderState V :=
  if c.map.isSome then { s with prov := l } else { s with recv := l }

/-- `performDataActions({READ_MAPPING_POST})`, ParticipantImpl.cpp:1731-1739. -/
def act (c : Reader V) (f : V → V) (s : ReaderState V) : Except Err (ReaderState V) := do
  let l ← perform f (c.readable s)
  .ok (c.setReadable l s)

/-- `initialize` with an action: ParticipantImpl.cpp:287-289. -/
def initAct (c : Reader V) (f : V → V) (initial : Option (Msg V)) (stamp : ℚ) (first : Option (Msg V)) : Except Err (ReaderState V) := do
  let s ← c.init initial stamp first
  c.act f s

/-- As `Reader.iterate`, with the action after the mapping: ParticipantImpl.cpp:516-520. -/
def iterateAct (c : Reader V) (f : V → V) (start now stamp next : ℚ) (complete : Bool) (msg : Option (Msg V)) (acc : Option (Samples V)) (s : ReaderState V) :
    Except Err (ReaderState V) := do
  let s ← c.iterate start now stamp next complete msg acc s
  c.act f s

end Reader

/-! ## Runs -/

/-- One iteration of a writer, see `Verif.DataPath.Writer.iterate` and `finish`. -/
structure WIter (V : Type) where
  start : ℚ
  next : ℚ
  complete : Bool
  steps : Samples V
  acc : Option (Samples V)

/-- The messages of the iterations. -/
def sendRun (c : Writer V) (f : V → V) : List (WIter V) → WriterState V → Except Err (List (Msg V))
  | [], _ => .ok []
  | i :: l, s => do
    let (s, msg) ← c.iterateAct f i.start i.steps i.acc s
    let rest ← sendRun c f l (c.finish i.start i.next i.complete s)
    .ok (msg :: rest)

/-- One iteration of a reader, see `Verif.DataPath.Reader.iterate`. -/
structure RIter (V : Type) where
  start : ℚ
  now : ℚ
  stamp : ℚ
  next : ℚ
  complete : Bool
  msg : Msg V
  acc : Option (Samples V)

/-- What can be read after each of the iterations. -/
def readRun (c : Reader V) (f : V → V) : List (RIter V) → ReaderState V → Except Err (List (Samples V))
  | [], _ => .ok []
  | i :: l, s => do
    let s ← c.iterateAct f i.start i.now i.stamp i.next i.complete (some i.msg) i.acc s
    let rest ← readRun c f l s
    .ok (c.readable s :: rest)

end Verif.DataPath
