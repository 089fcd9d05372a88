import Verif.Config.Scheme
import Verif.Time.Differences

/-!
# A coupling scheme from its tags (C109)

Model of `CouplingSchemeConfiguration::xmlTagCallback` and `xmlEndTagCallback` (`/repo/src/cplscheme/config/CouplingSchemeConfiguration.cpp`): the tags within one
`<coupling-scheme:...>` are read one after the other, the end tag creates the schemes of all its participants.

Left out: names of participants, meshes and data that do not exist (the tags refer to existing ones), `addNeededMesh`, warnings, and the configuration of the acceleration: `acc`
are the IDs of the data it is configured for, `none` without acceleration. `double` is `ℚ`.
-/

set_option autoImplicit false

namespace Verif.Config.Scheme

/-- `_config.type` -/
inductive Kind where
  | serialExplicit
  | parallelExplicit
  | serialImplicit
  | parallelImplicit
  | multi
deriving DecidableEq

/-- Schemes with iterations. -/
def Kind.implicit : Kind → Bool
  | .serialImplicit | .parallelImplicit | .multi => true
  | _ => false

/-- Schemes in which the first participant may set the time window size. -/
def Kind.serial : Kind → Bool
  | .serialExplicit | .serialImplicit => true
  | _ => false

/-- The limits of a convergence measure: absolute, absolute or relative, relative, and relative to the first residual. -/
inductive Limit where
  | abs (l : ℚ)
  | absOrRel (a r : ℚ)
  | rel (l : ℚ)
  | resRel (l : ℚ)
deriving DecidableEq

/-- `ConvergenceMeasureDefintion` -/
structure MeasureDef where
  data : ℕ
  limit : Limit
  suff : Bool
  strict : Bool
deriving DecidableEq

/-- `constants::TimesteppingMethod` -/
inductive Method where
  | fixed
  | firstParticipant
deriving DecidableEq

/-- The tags within a coupling scheme. -/
inductive STag where
  | participants (first second : ℕ)
  | participant (name : ℕ) (control : Bool)
  | maxTime (v : ℚ)
  | maxTimeWindows (v : ℤ)
  | timeWindowSize (v : ℚ) (m : Method)
  | measure (m : MeasureDef)
  | exchange (e : Exchange)
  | minIterations (v : ℤ)
  | maxIterations (v : ℤ)
deriving DecidableEq

/-- `Config`, CouplingSchemeConfiguration.hpp:139-169. The controller is `none` while `setController` is not set. -/
structure Cfg where
  participants : List ℕ := []
  controller : Option ℕ := none
  maxTime : ℚ := -1
  maxTimeWindows : ℤ := -1
  timeWindowSize : ℚ := -1
  method : Method := .fixed
  exchanges : List Exchange := []
  measures : List MeasureDef := []
  maxIterations : ℤ := -1
  minIterations : ℤ := 1
deriving DecidableEq

/-- The checks of `addAbsoluteConvergenceMeasure` and the others, CouplingSchemeConfiguration.cpp:684-790. -/
def Limit.ok : Limit → Bool
  | .abs l => decide (greater l 0)
  | .absOrRel a r => decide (greater a 0) && (decide (greater r 0) && decide (greaterEquals 1 r))
  | .rel l => decide (greater l 0) && decide (greaterEquals 1 l)
  | .resRel l => decide (greater l 0) && decide (greaterEquals 1 l)

/-- One tag, CouplingSchemeConfiguration.cpp:165-313. -/
def readTag (kind : Kind) (c : Cfg) : STag → Except Err Cfg
  | .participants f s => if f = s then .error .check else .ok { c with participants := c.participants ++ [f, s] }
  | .participant n control =>
    if kind ≠ .multi then .error .assert
    else if n ∈ c.participants ∨ c.controller = some n then .error .check
    else if control then
      if c.controller.isSome then .error .check else .ok { c with controller := some n, participants := c.participants ++ [n] }
    else .ok { c with participants := c.participants ++ [n] }
  | .maxTime v => if 0 < v then .ok { c with maxTime := v } else .error .check
  | .maxTimeWindows v => if 0 < v then .ok { c with maxTimeWindows := v } else .error .check
  | .timeWindowSize v .fixed => if tol ≤ v then .ok { c with timeWindowSize := v, method := .fixed } else .error .check
  | .timeWindowSize _ .firstParticipant => .ok { c with timeWindowSize := -1, method := .firstParticipant }
  | .measure m =>
    if kind.implicit = false then .error .assert
    else if m.limit.ok then .ok { c with measures := c.measures ++ [m] }
    else .error .check
  | .exchange e =>
    match addExchange c.exchanges e with
    | .error x => .error x
    | .ok l => .ok { c with exchanges := l }
  | .minIterations v =>
    if kind.implicit = false then .error .assert
    else if 0 < v then .ok { c with minIterations := v } else .error .check
  | .maxIterations v =>
    if kind.implicit = false then .error .assert
    else if 0 < v then .ok { c with maxIterations := v } else .error .check

/-- The consistency checks after each tag, CouplingSchemeConfiguration.cpp:315-323. -/
def consistent (c : Cfg) : Bool := !(decide (0 < c.minIterations) && decide (0 < c.maxIterations)) || decide (c.minIterations ≤ c.maxIterations)

/-- `xmlTagCallback`, CouplingSchemeConfiguration.cpp:155-324. -/
def readTagChecked (kind : Kind) (c : Cfg) (t : STag) : Except Err Cfg :=
  match readTag kind c t with
  | .error x => .error x
  | .ok c => if consistent c then .ok c else .error .check

/-- All tags. -/
def readTags (kind : Kind) : Cfg → List STag → Except Err Cfg
  | c, [] => .ok c
  | c, t :: ts =>
    match readTagChecked kind c t with
    | .error x => .error x
    | .ok c => readTags kind c ts

/-! ## The end tag -/

/-- The scheme of a participant: the parameters of its constructor, its data, its convergence measures, and the data of its acceleration. -/
structure Built where
  accessor : ℕ
  maxTime : ℚ
  maxTimeWindows : ℤ
  timeWindowSize : ℚ
  method : Method
  minIterations : ℤ
  maxIterations : ℤ
  all : List CplData
  send : List CplData
  measures : List MeasureDef
  acc : Option (List ℕ)

/-- The assertions of the constructor of `BaseCouplingScheme`, BaseCouplingScheme.cpp:57-84, and of `SerialCouplingScheme`, SerialCouplingScheme.cpp:35-47. -/
def constructible (kind : Kind) (maxTime : ℚ) (maxTimeWindows : ℤ) (size : ℚ) (method : Method) (minIter maxIter : ℤ) : Bool :=
  !(decide (maxTime ≠ -1) && decide (maxTime < 0))
    && !(decide (maxTimeWindows ≠ -1) && decide (maxTimeWindows < 0))
    && !(!decide (equals size (-1)) && decide (size < 0))
    && (decide (method ≠ .fixed) || !decide (equals size (-1)))
    && (if kind.implicit then
          decide (minIter ≠ -1) && decide (maxIter ≠ -1) && decide (0 < minIter) && (decide (maxIter = -2) || decide (0 < maxIter))
            && (decide (maxIter = -2) || decide (minIter ≤ maxIter))
        else decide (minIter = -1) && decide (maxIter = -1))
    && (decide (method ≠ .firstParticipant) || decide (size = -1))

/-- `updateConfigForImplicitCoupling`, CouplingSchemeConfiguration.cpp:975-980. -/
def updateImplicit (c : Cfg) : Cfg := if c.maxIterations = -1 then { c with maxIterations := -2 } else c

/-- `checkIterationLimits`, CouplingSchemeConfiguration.cpp:982-994. -/
def iterationLimits (c : Cfg) : Bool := !c.measures.isEmpty || decide (c.maxIterations ≠ -1)

/-- `checkIfDataIsExchanged`, CouplingSchemeConfiguration.cpp:1106-1135. -/
def isExchanged (exs : List Exchange) (d p : ℕ) : Bool := exs.any fun e => if e.src ≠ p ∧ e.dst ≠ p then false else decide (e.data = d)

/-- `addConvergenceMeasures`, CouplingSchemeConfiguration.cpp:1169-1179, with the assertion of `addConvergenceMeasure`, BaseCouplingScheme.cpp:682. -/
def addMeasures (exs : List Exchange) (p : ℕ) (all : List CplData) : List MeasureDef → Except Err (List MeasureDef)
  | [] => .ok []
  | m :: ms =>
    if isExchanged exs m.data p = false then .error .check
    else if (all.any fun x => decide (x.data = m.data)) = false then .error .assert
    else
      match addMeasures exs p all ms with
      | .error x => .error x
      | .ok l => .ok (m :: l)

/-- `checkSerialImplicitAccelerationData`, CouplingSchemeConfiguration.cpp:1137-1167. -/
def serialData (exs : List Exchange) (second d : ℕ) : Except Err Unit :=
  if isExchanged exs d second = false then .error .check
  else
    match exs.find? fun e => e.data = d with
    | none => .error .assert
    | some e => if second = e.src then .ok () else .error .check

/-- `setSerialAcceleration`, CouplingSchemeConfiguration.cpp:1181-1194, the loop. -/
def serialAcc (exs : List Exchange) (second : ℕ) : List ℕ → Except Err Unit
  | [] => .ok ()
  | d :: ds =>
    match serialData exs second d with
    | .error x => .error x
    | .ok () => serialAcc exs second ds

/-- `setParallelAcceleration`, CouplingSchemeConfiguration.cpp:1196-1217, the loop. -/
def parallelAcc (exs : List Exchange) (p : ℕ) : List ℕ → Except Err Unit
  | [] => .ok ()
  | d :: ds => if isExchanged exs d p then parallelAcc exs p ds else .error .check

/-- The last check of `createSerialImplicitCouplingScheme`, CouplingSchemeConfiguration.cpp:880-884: the first participant must not send the first data of the acceleration. -/
def serialLast (first accessor : ℕ) (send : List CplData) : Option (List ℕ) → Bool
  | some (d :: _) => !(decide (accessor = first) && send.any fun x => decide (x.data = d))
  | _ => true

/-- What the schemes need from elsewhere: see `Lookup`, and between which participants there is a communication (`isM2NConfigured`, m2n/config/M2NConfiguration.cpp:123-129). -/
structure World extends Lookup where
  link : ℕ → ℕ → Bool

/-- The limits for iterations given to the constructor: for explicit schemes `UNDEFINED_MAX_ITERATIONS` twice, SerialCouplingScheme.cpp:50-60 and ParallelCouplingScheme.cpp:24-33. -/
def Cfg.minFor (kind : Kind) (c : Cfg) : ℤ := if kind.implicit then c.minIterations else -1

/-- See `Cfg.minFor`. -/
def Cfg.maxFor (kind : Kind) (c : Cfg) : ℤ := if kind.implicit then c.maxIterations else -1

/-- `setSerialAcceleration` or `setParallelAcceleration`. -/
def setAcc (kind : Kind) (exs : List Exchange) (q : ℕ) (acc : Option (List ℕ)) : Except Err Unit :=
  if kind.serial then serialAcc exs q (acc.getD []) else parallelAcc exs q (acc.getD [])

/-- Only the controller has convergence measures, CouplingSchemeConfiguration.cpp:945-947. -/
def controllerMeasures (c : Cfg) (controller accessor : ℕ) (all : List CplData) : Except Err (List MeasureDef) :=
  if accessor = controller then addMeasures c.exchanges controller all c.measures else .ok []

/-- `createSerialExplicitCouplingScheme`, 811-830, `createParallelExplicitCouplingScheme`, 832-853, `createSerialImplicitCouplingScheme`, 855-887, and
`createParallelImplicitCouplingScheme`, 889-914. `getM2N` fails without communication between the two (m2n/config/M2NConfiguration.cpp:112-121). -/
def createBi (w : World) (kind : Kind) (c : Cfg) (acc : Option (List ℕ)) (first second accessor : ℕ) : Except Err Built :=
  if kind.serial = false ∧ c.method ≠ .fixed then .error .assert
  else if w.link first second = false then .error .check
  else if constructible kind c.maxTime c.maxTimeWindows c.timeWindowSize c.method (c.minFor kind) (c.maxFor kind) = false then .error .assert
  else
    match Bi.build w.toLookup first second accessor c.exchanges with
    | .error x => .error x
    | .ok s =>
      if kind.implicit then
        if s.send.isEmpty then .error .check
        else if iterationLimits c = false then .error .check
        else
          match addMeasures c.exchanges second s.all c.measures with
          | .error x => .error x
          | .ok ms =>
            match setAcc kind c.exchanges second acc with
            | .error x => .error x
            | .ok () =>
              if kind.serial && !serialLast first accessor s.send acc then .error .check
              else .ok ⟨accessor, c.maxTime, c.maxTimeWindows, c.timeWindowSize, c.method, c.minIterations, c.maxIterations, s.all, s.send, ms, acc⟩
      else .ok ⟨accessor, c.maxTime, c.maxTimeWindows, c.timeWindowSize, c.method, -1, -1, s.all, s.send, [], none⟩

/-- `createMultiCouplingScheme`, CouplingSchemeConfiguration.cpp:916-958. The communications are looked up with `isM2NConfigured`: those that are missing are left out. The map `send`
of the result has the data for all receivers, here only whether it is empty counts. -/
def createMulti (c : Cfg) (acc : Option (List ℕ)) (controller accessor : ℕ) : Except Err Built :=
  if c.method ≠ .fixed then .error .assert
  else if constructible .multi c.maxTime c.maxTimeWindows c.timeWindowSize .fixed c.minIterations c.maxIterations = false then .error .assert
  else
    match Multi.build c.participants accessor c.exchanges with
    | .error x => .error x
    | .ok s =>
      if c.participants.all fun q => (s.send q).isEmpty then .error .check
      else if iterationLimits c = false then .error .check
      else
        match controllerMeasures c controller accessor s.all with
        | .error x => .error x
        | .ok ms =>
          match parallelAcc c.exchanges controller (acc.getD []) with
          | .error x => .error x
          | .ok () => .ok ⟨accessor, c.maxTime, c.maxTimeWindows, c.timeWindowSize, .fixed, c.minIterations, c.maxIterations, s.all, c.participants.flatMap s.send, ms, acc⟩

/-- The loop over the participants of a multi coupling, CouplingSchemeConfiguration.cpp:386-389. -/
def createAll (f : ℕ → Except Err Built) : List ℕ → Except Err (List Built)
  | [] => .ok []
  | p :: ps =>
    match f p with
    | .error x => .error x
    | .ok b =>
      match createAll f ps with
      | .error x => .error x
      | .ok l => .ok (b :: l)

/-- `xmlEndTagCallback`, CouplingSchemeConfiguration.cpp:326-395, without the compositions. -/
def finish (w : World) (kind : Kind) (remeshing : Bool) (acc : Option (List ℕ)) (c : Cfg) : Except Err (List Built) :=
  if c.maxTime = -1 ∧ c.maxTimeWindows = -1 then .error .check
  else if remeshing = true ∧ (kind.serial = true ∨ kind = .multi) then .error .check
  else
    let c := if kind.implicit then updateImplicit c else c
    if kind = .multi then
      match c.controller with
      | none => .error .check
      | some m => createAll (createMulti c acc m) c.participants
    else
      match c.participants with
      | p :: q :: _ => createAll (createBi w kind c acc p q) [p, q]
      | _ => .error .undef

/-- A coupling scheme: its tags, then the end tag. -/
def configureScheme (w : World) (kind : Kind) (remeshing : Bool) (acc : Option (List ℕ)) (ts : List STag) : Except Err (List Built) :=
  match readTags kind {} ts with
  | .error x => .error x
  | .ok c => finish w kind remeshing acc c

/-! ## Several schemes of a participant -/

/-- `addCouplingScheme`, CouplingSchemeConfiguration.cpp:398-427: a participant has a list of schemes, only whether they are implicit matters. With more than one scheme the participant
has a `CompositionalCouplingScheme`, which is implicit if one of its schemes is (CompositionalCouplingScheme.cpp). -/
def addScheme (remeshing : Bool) (l : List Bool) (implicit : Bool) : Except Err (List Bool) :=
  if l.isEmpty then .ok [implicit]
  else if remeshing then .error .check
  else if implicit && l.any id then .error .check
  else .ok (l ++ [implicit])

/-- All schemes of a participant. -/
def addSchemes (remeshing : Bool) : List Bool → List Bool → Except Err (List Bool)
  | l, [] => .ok l
  | l, b :: bs =>
    match addScheme remeshing l b with
    | .error x => .error x
    | .ok l => addSchemes remeshing l bs

end Verif.Config.Scheme
