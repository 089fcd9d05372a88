import Verif.Config.Scheme
import Verif.Time.Differences

/-!
# Configuration of actions, and Python actions (C124)

Model of `createAction` in `/repo/src/action/config/ActionConfiguration.cpp` with the constructors of the actions, of the check of the participant
(`/repo/src/precice/config/ParticipantConfiguration.cpp`:641-651), and of `performAction` in `/repo/src/action/PythonAction.cpp`. preCICE is compiled with Python.
The other actions are modelled in `Verif.Misc.Summation` and `Verif.Misc.AreaScaling`, when actions are performed in `Verif.Api.Actions`.
-/

set_option autoImplicit false

namespace Verif.Config.Act

open Scheme (Err)

inductive Kind where
  | multiplyByArea
  | divideByArea
  | summation
  | recorder
  | python
deriving DecidableEq

inductive Timing where
  | writeMappingPost
  | readMappingPost
deriving DecidableEq

/-- The tag `<action:KIND timing=... mesh=...>` with its subtags as collected by `xmlTagCallback`, ActionConfiguration.cpp:122-147. -/
structure Tag where
  kind : Kind
  timing : Timing
  mesh : String
  sources : List String
  target : Option String
  path : Option String
  modul : String
deriving DecidableEq

/-- What the tag is checked against: the meshes, the dimensions of the data of a mesh, the meshes used by the participant, and the file system. -/
structure World where
  isMesh : String → Bool
  dims : String → String → Option ℕ
  isUsed : String → Bool
  isDirectory : String → Bool

inductive Action where
  | scale (timing : Timing) (mesh target : String) (multiply : Bool)
  | summation (timing : Timing) (mesh : String) (sources : List String) (target : String)
  | recorder (timing : Timing) (mesh : String)
  | python (timing : Timing) (path modul mesh : String) (target source : Option String)
deriving DecidableEq

/-- ActionConfiguration.cpp:174-178: `targetDataID`, -1 is `none`. A name that was not given is empty. -/
def targetOf (w : World) (t : Tag) : Except Err (Option String) :=
  let name := t.target.getD ""
  if name = "" then .ok none
  else if (w.dims t.mesh name).isSome then .ok (some name)
  else .error .check

/-- ActionConfiguration.cpp:181-184 -/
def sourcesOf (w : World) (mesh : String) : List String → Except Err (List String)
  | [] => .ok []
  | n :: l =>
    if (w.dims mesh n).isSome then do
      let l ← sourcesOf w mesh l
      .ok (n :: l)
    else .error .check

/-- The constructor of `SummationAction`, SummationAction.cpp:14-29. `mesh->data(-1)` has no result. -/
def summation (w : World) (timing : Timing) (mesh : String) (sources : List String) (target : Option String) : Except Err Action :=
  match target with
  | none => .error .undef
  | some target => if sources.all fun n => w.dims mesh n == w.dims mesh target then .ok (.summation timing mesh sources target) else .error .check

/-- The constructor of `PythonAction`, PythonAction.cpp:55-77. -/
def python (w : World) (timing : Timing) (path modul mesh : String) (target source : Option String) : Except Err Action :=
  if w.isDirectory path then .ok (.python timing path modul mesh target source) else .error .check

/-- `createAction`, ActionConfiguration.cpp:163-215. `back` of an empty vector is undefined. The check in 186-187 always holds. -/
def createAction (w : World) (t : Tag) : Except Err Action :=
  if w.isMesh t.mesh then do
    let target ← targetOf w t
    let sources ← sourcesOf w t.mesh t.sources
    match t.kind with
    | .multiplyByArea | .divideByArea =>
      match target with
      | none => .error .undef
      | some target => .ok (.scale t.timing t.mesh target (t.kind == .multiplyByArea))
    | .summation => summation w t.timing t.mesh sources target
    | .recorder => .ok (.recorder t.timing t.mesh)
    | .python =>
      match sources.getLast? with
      | none => .error .undef
      | some source => python w t.timing (t.path.getD "") t.modul t.mesh target (some source)
  else .error .check

def Action.mesh : Action → String
  | .scale _ m _ _ => m
  | .summation _ m _ _ => m
  | .recorder _ m => m
  | .python _ _ _ m _ _ => m

/-- The actions of a participant: all are created, then their meshes are checked, ParticipantConfiguration.cpp:641-651. -/
def configure (w : World) (l : List Tag) : Except Err (List Action) := do
  let as ← l.mapM (createAction w)
  if as.all fun a => w.isUsed a.mesh then .ok as else .error .check

/-! ## Performing a Python action -/

variable {σ V : Type}

/-- The user's function `performAction`: it is called with the time, the values of the source if there is one, and the values of the target, and leaves other values in
the arrays. It may keep a state between calls. `none` is a Python exception. -/
abbrev UserFunction (σ V : Type) : Type := σ → ℚ → Option V → V → Option (σ × Option V × V)

/-- PythonAction.cpp:98-115: the loop without source. The arrays refer to the values of the stored samples. -/
def loopTarget (f : UserFunction σ V) : σ → List (ℚ × V) → Except Err (σ × List (ℚ × V))
  | s, [] => .ok (s, [])
  | s, (t, v) :: l =>
    match f s t none v with
    | none => .error .check
    | some (s, _, v') => do
      let (s, l) ← loopTarget f s l
      .ok (s, (t, v') :: l)

/-- PythonAction.cpp:127-153: the loop with source. Source and target are different data. -/
def loopBoth (f : UserFunction σ V) : σ → List (ℚ × V) → List (ℚ × V) → Except Err (σ × List (ℚ × V) × List (ℚ × V))
  | s, (ts, vs) :: src, (t, v) :: tgt =>
    if Verif.equals ts t then
      match f s t (some vs) v with
      | none => .error .check
      | some (s, vs', v') => do
        let (s, src, tgt) ← loopBoth f s src tgt
        .ok (s, (ts, vs'.getD vs) :: src, (t, v') :: tgt)
    else .error .check
  | s, src, tgt => .ok (s, src, tgt)

/-- `performAction`, PythonAction.cpp:90-155, on the stored samples of source and target; `none` is a null pointer. `back` of no samples is undefined. Loading the
module (`initialize`) is not modelled. -/
def perform (f : UserFunction σ V) (s : σ) (source target : Option (List (ℚ × V))) : Except Err (σ × Option (List (ℚ × V)) × Option (List (ℚ × V))) :=
  match source, target with
  | none, some tgt => do
    let (s, tgt) ← loopTarget f s tgt
    if tgt.isEmpty then .error .undef else .ok (s, none, some tgt)
  | some src, some tgt =>
    if tgt.length = src.length then do
      let (s, src, tgt) ← loopBoth f s src tgt
      if tgt.isEmpty then .error .undef else .ok (s, some src, some tgt)
    else .error .check
  | _, none => .error .undef

end Verif.Config.Act
