import Verif.Config.Scheme
import Mathlib.Data.Rat.Defs
import Mathlib.Algebra.Order.Ring.Rat

/-!
# Configuration of accelerations (C123)

Model of `/repo/src/acceleration/config/AccelerationConfiguration.cpp`: the callbacks for the tag of an acceleration and its subtags, and the creation of the
acceleration with the checks of the constructors. The tags are given as written by the user, an attribute that was not given is `none`; `attr` fills in the
default of the schema. Whether tags conform to the schema is decided before the callbacks (`Verif.Config.Tag`) and stated as `Tag.Valid`.
Simplifications: data are identified by their names and the name of the mesh instead of data IDs; preCICE is compiled with MPI.
-/

set_option autoImplicit false

namespace Verif.Config.Accel

open Scheme (Err)

inductive Kind where
  | constant
  | aitken
  | ils
  | imvj
deriving DecidableEq

inductive Filter where
  | no
  | qr1
  | qr1Absolute
  | qr2
  | qr3
deriving DecidableEq

inductive RestartType where
  | no
  | zero
  | ls
  | svd
  | slide
deriving DecidableEq

inductive OnBound where
  | ignore
  | clamp
  | discard
  | scale
deriving DecidableEq

inductive PrecondType where
  | constant
  | value
  | residual
  | residualSum
deriving DecidableEq

/-- Names of the subtags. -/
inductive Name where
  | relaxation
  | data
  | initialRelaxation
  | maxUsedIterations
  | timeWindowsReused
  | filter
  | preconditioner
  | restartMode
deriving DecidableEq

/-- A subtag with its attributes. -/
inductive Sub where
  | relaxation (value : ℚ)
  | data (name mesh : String) (scaling : Option ℚ)
  | initialRelaxation (value : ℚ) (enforce : Option Bool)
  | maxUsedIterations (value : ℤ)
  | timeWindowsReused (value : ℤ)
  | filter (type : Option Filter) (limit : Option ℚ)
  | preconditioner (type : PrecondType) (updateOnThreshold : Option Bool) (freezeAfter : Option ℤ)
  | restartMode (type : Option RestartType) (chunkSize reusedTimeWindows : Option ℤ) (truncation : Option ℚ)
deriving DecidableEq

def Sub.name : Sub → Name
  | .relaxation .. => .relaxation
  | .data .. => .data
  | .initialRelaxation .. => .initialRelaxation
  | .maxUsedIterations .. => .maxUsedIterations
  | .timeWindowsReused .. => .timeWindowsReused
  | .filter .. => .filter
  | .preconditioner .. => .preconditioner
  | .restartMode .. => .restartMode

/-- The tag `<acceleration:KIND ...>`. -/
structure Tag where
  kind : Kind
  alwaysBuildJacobian : Option Bool
  reducedTimeGrid : Option Bool
  onBoundViolation : Option OnBound
  subs : List Sub

/-! ## The schema, AccelerationConfiguration.cpp:86-152, 400-625 -/

def Kind.isQN (k : Kind) : Bool := k == .ils || k == .imvj

/-- Which subtags a kind has: `addTypeSpecificSubtags`, AccelerationConfiguration.cpp:443-616, and `addCommonIQNSubtags`, 400-441. -/
def Kind.has (k : Kind) : Name → Bool
  | .relaxation => k == .constant
  | .data | .initialRelaxation | .preconditioner => k != .constant
  | .maxUsedIterations | .timeWindowsReused | .filter => k.isQN
  | .restartMode => k == .imvj

/-- The attr `enforce` of `initial-relaxation` exists for quasi-Newton methods only, AccelerationConfiguration.cpp:455-460, 505-507, 553-556. -/
def Kind.hasEnforce (k : Kind) : Bool := k.isQN

/-- The attr `update-on-threshold` of `preconditioner` exists for quasi-Newton methods only, AccelerationConfiguration.cpp:478-497, 533-546, 603-615. -/
def Kind.hasUpdateOnThreshold (k : Kind) : Bool := k.isQN

/-- The value of an attribute: the one given by the user, else the default; `none` if the schema has no such attribute. -/
def attr {α : Type} (exist : Bool) (given : Option α) (default : α) : Option α := if exist then some (given.getD default) else none

/-- `XMLTag::get...AttributeValue`, XMLTag.cpp:120-170: an attribute that does not exist is `PRECICE_UNREACHABLE`, which aborts. -/
def get {α : Type} : Option α → Except Err α
  | some a => .ok a
  | none => .error .assert

/-! ## The state of the configuration -/

/-- `ConfigurationData` and `UserDefinitions`, AccelerationConfiguration.hpp:111-172. `estimateJacobian` is not used; the type is fixed by the open tag. -/
structure Data where
  data : List (String × String) := []
  scalings : List ((String × String) × ℚ) := []
  relaxationFactor : ℚ := 0
  forceInitialRelaxation : Bool := false
  maxIterationsUsed : ℤ := 0
  timeWindowsReused : ℤ := 0
  filter : Filter := .no
  restartType : RestartType := .no
  chunkSize : ℤ := 0
  reusedAtRestart : ℤ := 0
  freezeAfter : ℤ := -1
  singularityLimit : ℚ := 0
  truncation : ℚ := 0
  alwaysBuildJacobian : Bool := false
  reducedTimeGrid : Bool := true
  updateOnThreshold : Bool := true
  preconditioner : Option PrecondType := none
  onBoundViolation : OnBound := .ignore
  definedRelaxationFactor : Bool := false
  definedMaxIterationsUsed : Bool := false
  definedTimeWindowsReused : Bool := false
  definedFilter : Bool := false
  definedRestartType : Bool := false

/-- The callback for the open tag, AccelerationConfiguration.cpp:169-193. -/
def openTag (t : Tag) (d : Data) : Except Err Data := do
  let d ← if t.kind = .imvj then do
      let b ← get (attr (t.kind == .imvj) t.alwaysBuildJacobian false)
      .ok { d with alwaysBuildJacobian := b }
    else .ok d
  if t.kind.isQN then do
    let r ← get (attr t.kind.isQN t.reducedTimeGrid true)
    let o ← get (attr t.kind.isQN t.onBoundViolation .ignore)
    .ok { d with reducedTimeGrid := r, onBoundViolation := o }
  else .ok d

/-- The callback for a subtag, AccelerationConfiguration.cpp:194-290. `known mesh data` says whether the mesh exists and has the data; `seen` is
`_uniqueDataAndMeshNames`. -/
def subTag (known : String → String → Bool) (k : Kind) (s : Sub) (d : Data) (seen : List (String × String)) : Except Err (Data × List (String × String)) :=
  match s with
  | .relaxation v => .ok ({ d with relaxationFactor := v }, seen)
  | .data name mesh scaling =>
    if (name, mesh) ∈ seen then .error .check
    else do
      let scaling ← if k.isQN then get (attr true scaling 1) else .ok 1
      if known mesh name then
        .ok ({ d with data := d.data ++ [(name, mesh)], scalings := d.scalings ++ [((name, mesh), scaling)] }, seen ++ [(name, mesh)])
      else .error .check
  | .initialRelaxation v enforce => do
    let force ← if k.hasEnforce then get (attr k.hasEnforce enforce false) else .ok false
    .ok ({ d with definedRelaxationFactor := true, relaxationFactor := v, forceInitialRelaxation := force }, seen)
  | .maxUsedIterations v => .ok ({ d with definedMaxIterationsUsed := true, maxIterationsUsed := v }, seen)
  | .timeWindowsReused v => .ok ({ d with definedTimeWindowsReused := true, timeWindowsReused := v }, seen)
  | .filter type limit => do
    let f ← get (attr true type .qr3)
    let l ← get (attr true limit (1 / 10 ^ 16))
    .ok ({ d with definedFilter := true, filter := f, singularityLimit := l }, seen)
  | .preconditioner type update freeze => do
    let u ← get (attr k.hasUpdateOnThreshold update true)
    let n ← get (attr true freeze (-1))
    .ok ({ d with preconditioner := some type, updateOnThreshold := u, freezeAfter := n }, seen)
  | .restartMode type chunk reused truncation => do
    let d := { d with definedRestartType := true }
    let c ← get (attr true chunk 8)
    let d := { d with chunkSize := c }
    let f ← get (attr true type .svd)
    if f = .no ∨ d.alwaysBuildJacobian = false then
      match f with
      | .no | .zero | .slide => .ok ({ d with restartType := f }, seen)
      | .ls => do
        let r ← get (attr true reused 8)
        .ok ({ d with reusedAtRestart := r, restartType := f }, seen)
      | .svd => do
        let e ← get (attr true truncation (1 / 10 ^ 4))
        .ok ({ d with truncation := e, restartType := f }, seen)
    else .error .check

/-! ## The accelerations -/

/-- The preconditioner with the arguments of its constructor. -/
inductive Precond where
  | constant (factors : List ℚ)
  | value (freezeAfter : ℤ)
  | residual (freezeAfter : ℤ)
  | residualSum (freezeAfter : ℤ) (updateOnThreshold : Bool)
deriving DecidableEq

/-- The restart mode with the parameters that it uses: the chunk size in all restart modes, the reused windows in RS-LS (IQNIMVJAcceleration.cpp:537-600), and the
truncation in RS-SVD (SVDFactorization). -/
inductive Restart where
  | no
  | zero (chunk : ℤ)
  | ls (chunk reused : ℤ)
  | svd (chunk : ℤ) (truncation : ℚ)
  | slide (chunk : ℤ)
deriving DecidableEq

/-- What both quasi-Newton methods have, BaseQNAcceleration.cpp:36-77. -/
structure QN where
  relaxation : ℚ
  force : Bool
  maxIterationsUsed : ℤ
  timeWindowsReused : ℤ
  filter : Filter
  limit : ℚ
  data : List (String × String)
  onBound : OnBound
  precond : Precond
  reducedTimeGrid : Bool
deriving DecidableEq

inductive Acceleration where
  | constant (relaxation : ℚ)
  | aitken (relaxation : ℚ) (data : List (String × String)) (precond : Precond)
  | ils (qn : QN)
  | imvj (qn : QN) (alwaysBuildJacobian : Bool) (restart : Restart)
deriving DecidableEq

/-- `scalingFactorsInOrder`, AccelerationConfiguration.cpp:628-635; `at` throws if there is no entry. -/
def factors (d : Data) : Except Err (List ℚ) :=
  d.data.mapM fun i => match (d.scalings.find? fun e => e.1 == i) with
    | some e => .ok e.2
    | none => .error .assert

/-- AccelerationConfiguration.cpp:301-314 and 358-370 -/
def createPrecond (d : Data) : Except Err Precond :=
  match d.preconditioner with
  | some .constant => do
    let f ← factors d
    .ok (.constant f)
  | some .value => .ok (.value d.freezeAfter)
  | some .residual => .ok (.residual d.freezeAfter)
  | some .residualSum => .ok (.residualSum d.freezeAfter d.updateOnThreshold)
  | none => .ok (.residualSum (-1) true)

/-- The check of all constructors. -/
def checkRelaxation (v : ℚ) : Except Err Unit := if 0 < v ∧ v ≤ 1 then .ok () else .error .check

/-- The constructor of `BaseQNAcceleration`, BaseQNAcceleration.cpp:36-77. -/
def createQN (q : QN) : Except Err QN := do
  checkRelaxation q.relaxation
  if 0 < q.maxIterationsUsed then
    if 0 ≤ q.timeWindowsReused then .ok q else .error .check
  else .error .check

def restartOf (d : Data) : Restart :=
  match d.restartType with
  | .no => .no
  | .zero => .zero d.chunkSize
  | .ls => .ls d.chunkSize d.reusedAtRestart
  | .svd => .svd d.chunkSize d.truncation
  | .slide => .slide d.chunkSize

/-- The callback for the end of the tag, AccelerationConfiguration.cpp:293-388; `present` says that the scheme has an acceleration already. The defaults are those of
AccelerationConfiguration.hpp:136-163. -/
def endTag (k : Kind) (present : Bool) (d : Data) : Except Err Acceleration := do
  let early ← if k = .ils ∨ k = .aitken then createPrecond d else .ok (.residualSum (-1) true)
  if present then .error .check
  else match k with
    | .constant => do
      checkRelaxation d.relaxationFactor
      .ok (.constant d.relaxationFactor)
    | .aitken => do
      let r := if d.definedRelaxationFactor then d.relaxationFactor else 1 / 2
      checkRelaxation r
      .ok (.aitken r d.data early)
    | .ils => do
      let q ← createQN
        { relaxation := if d.definedRelaxationFactor then d.relaxationFactor else 1 / 10
          force := d.forceInitialRelaxation
          maxIterationsUsed := if d.definedMaxIterationsUsed then d.maxIterationsUsed else 100
          timeWindowsReused := if d.definedTimeWindowsReused then d.timeWindowsReused else 10
          filter := if d.definedFilter then d.filter else .qr3
          limit := if d.definedFilter then d.singularityLimit else 1 / 100
          data := d.data
          onBound := d.onBoundViolation
          precond := early
          reducedTimeGrid := d.reducedTimeGrid }
      .ok (.ils q)
    | .imvj => do
      let d := if d.alwaysBuildJacobian then d
        else { d with restartType := if d.definedRestartType then d.restartType else .svd, chunkSize := if d.definedRestartType then d.chunkSize else 8 }
      let d := if d.restartType = .svd ∧ d.chunkSize < d.freezeAfter then { d with freezeAfter := d.chunkSize } else d
      let p ← createPrecond d
      let q ← createQN
        { relaxation := if d.definedRelaxationFactor then d.relaxationFactor else 1 / 10
          force := d.forceInitialRelaxation
          maxIterationsUsed := if d.definedMaxIterationsUsed then d.maxIterationsUsed else 20
          timeWindowsReused := if d.definedTimeWindowsReused then d.timeWindowsReused else 0
          filter := if d.definedFilter then d.filter else .qr3
          limit := if d.definedFilter then d.singularityLimit else 1 / 100
          data := d.data
          onBound := d.onBoundViolation
          precond := p
          reducedTimeGrid := d.reducedTimeGrid }
      .ok (.imvj q d.alwaysBuildJacobian (restartOf d))

/-- All subtags in the order of the file. -/
def subTags (known : String → String → Bool) (k : Kind) : List Sub → Data → List (String × String) → Except Err (Data × List (String × String))
  | [], d, seen => .ok (d, seen)
  | s :: l, d, seen => do
    let (d, seen) ← subTag known k s d seen
    subTags known k l d seen

/-- All accelerations of one coupling scheme. `d` is the state of the configuration, `a` the acceleration created before. -/
def accelerations (known : String → String → Bool) : List Tag → Data → List (String × String) → Option Acceleration →
    Except Err (Option Acceleration × List (String × String))
  | [], _, seen, a => .ok (a, seen)
  | t :: l, d, seen, a => do
    let d ← openTag t d
    let (d, seen) ← subTags known t.kind t.subs d seen
    let a ← endTag t.kind a.isSome d
    accelerations known l d seen (some a)

/-- The accelerations of one coupling scheme after `clear`, AccelerationConfiguration.cpp:391-398, which does not clear `_uniqueDataAndMeshNames`. -/
def configure (known : String → String → Bool) (seen : List (String × String)) (l : List Tag) : Except Err (Option Acceleration × List (String × String)) :=
  accelerations known l {} seen none

/-- The coupling schemes of a configuration file; each begins with `clear`, CouplingSchemeConfiguration.cpp:159-163. -/
def configureAll (known : String → String → Bool) : List (List Tag) → List (String × String) → Except Err (List (Option Acceleration))
  | [], _ => .ok []
  | t :: l, seen => do
    let (a, seen) ← configure known seen t
    let rest ← configureAll known l seen
    .ok (a :: rest)

end Verif.Config.Accel
