import Verif.Config.Participant
import Mathlib.Data.Rat.Defs
import Mathlib.Algebra.Order.Field.Rat

/-!
# The configuration of the method of a mapping (C126)

Model of `/repo/src/mapping/config/MappingConfiguration.cpp` as far as the method and its parameters
are concerned: the attributes and subtags of the tags `mapping:…`, the choice of the solver, the basis
function and the executor, and the checks in the constructors of the mappings. The meshes of a mapping,
its direction, the checks for just-in-time mappings and for duplicates are the model of C119
(`Verif/Config/Participant.lean`); here a mapping only knows whether it is just-in-time and the
dimensions of its meshes. Values of attributes of type string are enumerations, as the options of the
attributes are checked before (C107).
-/

set_option autoImplicit false

namespace Verif.Config.MapMethod

open Verif.Config.Scheme (Err)
open Verif.Config.Part (Constraint Kind)

/-- A floating-point number: exact rationals, both infinities and NaN. Zero has no sign. -/
inductive Dbl where
  | nan | pinf | ninf
  | fin (q : ℚ)
deriving DecidableEq

/-- `std::isfinite` -/
def Dbl.isFinite : Dbl → Bool
  | .fin _ => true
  | _ => false

/-- `math::greater(x, 0.0)`, math/differences.hpp:70-74. -/
def Dbl.greaterZero : Dbl → Bool
  | .fin q => decide (1 / 100000000000000 < q)
  | .pinf => true
  | _ => false

/-- `x > 0` -/
def Dbl.positive : Dbl → Bool
  | .fin q => decide (0 < q)
  | .pinf => true
  | _ => false

/-- `x < 1` -/
def Dbl.belowOne : Dbl → Bool
  | .fin q => decide (q < 1)
  | .ninf => true
  | _ => false

/-- `k / x` for a positive `k`. -/
def Dbl.divides (k : ℚ) : Dbl → Dbl
  | .fin q => if q = 0 then .pinf else .fin (k / q)
  | .nan => .nan
  | _ => .fin 0

/-- `int` to `unsigned int` -/
def toUnsigned (v : ℤ) : ℕ := (v % 4294967296).toNat

/-- `Polynomial`, MappingConfigurationTypes.hpp:11-15. -/
inductive Poly where
  | on | off | separate
deriving DecidableEq

/-- `BasisFunction`, MappingConfigurationTypes.hpp:17-29. -/
inductive Function where
  | wendlandC0 | wendlandC2 | wendlandC4 | wendlandC6 | wendlandC8 | thinPlateSplines | multiquadrics
  | inverseMultiquadrics | volumeSplines | gaussian | compactThinPlateSplinesC2
deriving DecidableEq

/-- `ExecutorConfiguration::Executor`, MappingConfiguration.hpp:253-259. -/
inductive Executor where
  | cpu | cuda | hip | sycl | omp
deriving DecidableEq

/-- The options of `multiscale-dimension`. -/
inductive MsDimension where
  | d1d3 | d1d2 | d2d3
deriving DecidableEq

/-- The options of `multiscale-type`. -/
inductive MsType where
  | spread | collect
deriving DecidableEq

/-- The options of `multiscale-axis`. -/
inductive MsAxis where
  | x | y | z
deriving DecidableEq

/-- The options of `multiscale-cross-section-profile`. -/
inductive MsProfile where
  | uniform | parabolic
deriving DecidableEq

/-- The options of `multiscale-cross-section`. -/
inductive MsSection where
  | circle | square
deriving DecidableEq

/-- A subtag `basis-function:…` with the attributes that are given. -/
structure BasisTag where
  function : Function
  supportRadius : Option Dbl := none
  shapeParameter : Option Dbl := none
deriving DecidableEq

/-- A subtag `executor:…` with the attributes that are given. -/
structure ExecutorTag where
  executor : Executor
  device : Option (List Char) := none
  threads : Option ℤ := none
  /-- the execution mode, `true` for `minimal-compute` -/
  compute : Option Bool := none
deriving DecidableEq

inductive Sub where
  | basis (b : BasisTag)
  | executor (e : ExecutorTag)
deriving DecidableEq

/-- A tag `mapping:…` with the attributes that are given. -/
structure Tag where
  kind : Kind
  constraint : Constraint
  /-- one of the meshes is the just-in-time mesh -/
  jit : Bool
  /-- dimensions of the meshes -/
  dim : ℕ
  polynomial : Option Poly := none
  xDead : Option Bool := none
  yDead : Option Bool := none
  zDead : Option Bool := none
  /-- radius of the coarse graining -/
  radius : Option Dbl := none
  rtol : Option Dbl := none
  vertices : Option ℤ := none
  overlap : Option Dbl := none
  project : Option Bool := none
  msDimension : Option MsDimension := none
  msType : Option MsType := none
  msAxis : Option MsAxis := none
  msRadius : Option Dbl := none
  msProfile : Option MsProfile := none
  msSection : Option MsSection := none
  subs : List Sub := []

/-- How preCICE was built, MappingConfiguration.cpp:848-910, and the number
`std::sqrt(-std::log(Gaussian::cutoffThreshold))`, BasisFunctions.hpp:281, which is about 4.55. The
theorems hold for any positive number. -/
structure Build where
  petsc : Bool
  ginkgo : Bool
  kokkosKernels : Bool
  cuda : Bool
  hip : Bool
  sycl : Bool
  omp : Bool
  k : ℚ
  kPos : 0 < k

/-- Reads an attribute, XMLTag.cpp:117-171 with the checks of XMLTag.cpp and ConfigParser.cpp (C107): an
attribute that is not declared must not be given and has the value the caller falls back to; one that
is declared has the value given or its default, and must be given if it has none. -/
def attr {α : Type} (declared : Bool) (default : Option α) (fallback : α) (given : Option α) :
    Except Err α :=
  if declared then
    match given, default with
    | some v, _ => .ok v
    | none, some d => .ok d
    | none, none => .error .check
  else
    match given with
    | some _ => .error .check
    | none => .ok fallback

/-- `MappingConfiguration::requiresBasisFunction`, MappingConfiguration.cpp:922-925. -/
def requiresBasis (t : Kind) : Bool :=
  t = .rbfPum || t = .rbfDirect || t = .rbfIterative || t = .rbfAlias

/-- The tags with the attributes `x-dead`, `y-dead` and `z-dead`, MappingConfiguration.cpp:275-279. -/
def hasDead (t : Kind) : Bool := t = .rbfDirect || t = .rbfIterative || t = .rbfAlias

/-- The tags with the attribute `polynomial`, MappingConfiguration.cpp:275-279. -/
def hasPolynomial (t : Kind) : Bool := t = .rbfDirect || t = .rbfIterative || t = .rbfPum

/-- The options of the attribute `polynomial`, MappingConfiguration.cpp:232-237. -/
def polynomialOption (t : Kind) : Option Poly → Except Err Unit
  | some .on => if t = .rbfPum then .error .check else .ok ()
  | _ => .ok ()

/-- `RBFConfiguration::SystemSolver`, MappingConfiguration.hpp:84-88. -/
inductive Solver where
  | globalDirect | globalIterative | pumDirect
deriving DecidableEq

/-- `RBFConfiguration`, MappingConfiguration.hpp:82-101. -/
structure Rbf where
  solver : Solver
  polynomial : Poly
  dead : Bool × Bool × Bool
  rtol : Dbl
  vertices : ℤ
  overlap : Dbl
  project : Bool
  /-- `basisFunctionDefined`, and the function with its parameters -/
  basis : Option (Function × Dbl × Dbl)
deriving DecidableEq

/-- `ExecutorConfiguration`, MappingConfiguration.hpp:251-264. -/
structure Exec where
  executor : Executor := .cpu
  device : ℤ := 0
  threads : ℤ := 0
  /-- `computeEvaluationOffline` -/
  offline : Bool := true
deriving DecidableEq

/-- An object of the classes in mapping/impl/BasisFunctions.hpp: the function, its shape parameter and
its support radius. -/
inductive Basis where
  /-- the Wendland functions and compact thin plate splines of a support radius -/
  | compact (f : Function) (radius : Dbl)
  /-- the Gaussian of a shape parameter, with the support radius it has -/
  | gaussian (shape radius : Dbl)
  /-- multiquadrics of a shape parameter -/
  | shaped (f : Function) (shape : Dbl)
  /-- thin plate splines and volume splines -/
  | plain (f : Function)
deriving DecidableEq

/-- The object of a mapping. -/
inductive Method where
  | nearestNeighbor
  | nearestProjection
  | gradient
  | linearCell
  | coarseGraining (radius : Dbl)
  | axial (d : MsDimension) (t : MsType) (a : MsAxis) (r : Dbl) (p : MsProfile) (s : MsSection)
  | radial (t : MsType) (a : MsAxis)
  /-- `RadialBasisFctMapping` with Eigen -/
  | direct (b : Basis) (dead : List Bool) (p : Poly)
  /-- `PetRadialBasisFctMapping` -/
  | petsc (b : Basis) (dead : List Bool) (p : Poly) (rtol : Dbl)
  /-- `RadialBasisFctMapping` with Ginkgo; the tolerance is that of the iterative solver -/
  | ginkgo (b : Basis) (dead : List Bool) (p : Poly) (rtol : Option Dbl) (e : Executor) (device threads : ℕ)
  /-- `PartitionOfUnityMapping` -/
  | pum (b : Basis) (p : Poly) (vertices : ℕ) (overlap : Dbl) (project : Bool) (e : Executor)
      (device threads : ℕ) (offline : Bool)
deriving DecidableEq

/-- The mapping that is made: `ConfiguredMapping::mapping`. -/
structure Made where
  constraint : Constraint
  dim : ℕ
  method : Method
deriving DecidableEq

/-- `constructRBF`, MappingConfiguration.cpp:112-158, with the constructors in
mapping/impl/BasisFunctions.hpp:120-124, 158-165, 229-251, 308-316, 360-368 and so on. The arguments are
the support radius and the shape parameter. The Gaussian is given the support radius `min(inf, k/shape)`. -/
def constructRbf (b : Build) (f : Function) (radius shape : Dbl) : Except Err Basis :=
  match f with
  | .wendlandC0 | .wendlandC2 | .wendlandC4 | .wendlandC6 | .wendlandC8 | .compactThinPlateSplinesC2 =>
    if radius.greaterZero then .ok (.compact f radius) else .error .check
  | .thinPlateSplines | .volumeSplines => .ok (.plain f)
  | .multiquadrics => .ok (.shaped f shape)
  | .inverseMultiquadrics => if shape.greaterZero then .ok (.shaped f shape) else .error .check
  | .gaussian =>
    if shape.greaterZero then .ok (.gaussian shape (Dbl.divides b.k shape)) else .error .check

/-- `RadialBasisFctBaseMapping::setDeadAxis`, RadialBasisFctBaseMapping.hpp:98-107. -/
def deadAxes (dim : ℕ) (dead : Bool × Bool × Bool) : Except Err (List Bool) :=
  let l := [dead.1, dead.2.1, dead.2.2].take dim
  if l.any fun a => a = false then .ok l else .error .check

/-- The checks in the constructor of `PartitionOfUnityMapping`, PartitionOfUnityMapping.hpp:149-178.
That it is not run on a device without Kokkos kernels has been checked before. -/
def makePum (b : Basis) (p : Poly) (vertices : ℕ) (overlap : Dbl) (project : Bool) (e : Executor)
    (device threads : ℕ) (offline : Bool) : Except Err Method :=
  if p = .on then .error .assert
  else if overlap.belowOne = false then .error .assert
  else if vertices = 0 then .error .assert
  else .ok (.pum b p vertices overlap project e device threads offline)

/-- `configureRBFMapping`, MappingConfiguration.cpp:567-605. -/
def configureRbf (t : Kind) (p : Poly) (dead : Bool × Bool × Bool) (rtol : Dbl) (vertices : ℤ)
    (overlap : Dbl) (project : Bool) : Rbf where
  solver := if t = .rbfIterative then .globalIterative else if t = .rbfDirect then .globalDirect else .pumDirect
  polynomial := p
  dead := dead
  rtol := rtol
  vertices := vertices
  overlap := overlap
  project := project
  basis := none

/-- The end of `createMapping`, MappingConfiguration.cpp:672-790, and the constructors of the mappings:
CoarseGrainingMapping.cpp:64-79, NearestProjectionMapping.cpp:25-43, LinearCellInterpolationMapping.cpp:11-29,
NearestNeighborGradientMapping.cpp:15-32. `none` is the null pointer of the mappings that still need a
basis function. -/
def createMapping (t : Kind) (c : Constraint) (radius : Dbl) (d : Option MsDimension) (ty : Option MsType)
    (a : Option MsAxis) (r : Dbl) (p : Option MsProfile) (s : Option MsSection) :
    Except Err (Option Method) :=
  match t with
  | .nearestNeighbor => .ok (some .nearestNeighbor)
  | .nearestProjection => if c = .scaledVolume then .error .check else .ok (some .nearestProjection)
  | .linearCell => if c = .scaledSurface then .error .check else .ok (some .linearCell)
  | .coarseGraining => if radius.positive then .ok (some (.coarseGraining radius)) else .error .check
  | .gradient => if c = .conservative then .error .check else .ok (some .gradient)
  | .axial =>
    if c = .conservative then .error .check
    else
      match d, ty, a, p, s with
      | some d, some ty, some a, some p, some s => .ok (some (.axial d ty a r p s))
      | _, _, _, _, _ => .error .assert
  | .radial =>
    if c = .conservative then .error .check
    else
      match ty, a with
      | some ty, some a => .ok (some (.radial ty a))
      | _, _ => .error .assert
  | .rbfIterative | .rbfDirect | .rbfPum | .rbfAlias => .ok none

/-- The members of `MappingConfiguration` that matter: the mappings, where `none` is a mapping without
object, `_rbfConfig`, `_executorConfig` and `constraintValue`. -/
structure State where
  done : List Made
  /-- the last element of `_mappings` while its tag is open -/
  current : Option (Kind × ℕ × Bool × Option Method)
  rbf : Rbf
  exec : Option Exec
  constraint : Constraint
deriving DecidableEq

/-- Nothing configured so far. -/
def State.init : State where
  done := []
  current := none
  rbf := configureRbf .rbfDirect .on (false, false, false) (.fin 0) 0 (.fin 0) false
  exec := none
  constraint := .consistent

/-- `xmlTagCallback` for a tag `mapping:…`, MappingConfiguration.cpp:439-492, where the attributes are
declared in 210-282. -/
def openTag (s : State) (t : Tag) : Except Err State := do
  let x ← attr (hasDead t.kind) (some false) false t.xDead
  let y ← attr (hasDead t.kind) (some false) false t.yDead
  let z ← attr (hasDead t.kind) (some false) false t.zDead
  let radius ← attr (t.kind = .coarseGraining) (some (.fin 0)) (.fin 0) t.radius
  let rtol ← attr (t.kind = .rbfIterative) (some (.fin (1 / 1000000000))) (.fin (1 / 1000000000)) t.rtol
  polynomialOption t.kind t.polynomial
  let polynomial ← attr (hasPolynomial t.kind) (some .separate) .separate t.polynomial
  let d ← attr (t.kind = .axial) none none (t.msDimension.map some)
  let ty ← attr (t.kind = .axial || t.kind = .radial) none none (t.msType.map some)
  let a ← attr (t.kind = .axial || t.kind = .radial) none none (t.msAxis.map some)
  let r ← attr (t.kind = .axial || t.kind = .radial) none (.fin 1) t.msRadius
  let p ← attr (t.kind = .axial) (some (some .uniform)) none (t.msProfile.map some)
  let sec ← attr (t.kind = .axial) (some (some .circle)) none (t.msSection.map some)
  let vertices ← attr (t.kind = .rbfPum) (some 50) 100 t.vertices
  let overlap ← attr (t.kind = .rbfPum) (some (.fin (15 / 100))) (.fin (3 / 10)) t.overlap
  let project ← attr (t.kind = .rbfPum) (some true) true t.project
  let m ← createMapping t.kind t.constraint radius d ty a r p sec
  .ok { s with
    current := some (t.kind, t.dim, t.jit, m)
    constraint := t.constraint
    rbf := configureRbf t.kind polynomial (x, y, z) rtol vertices overlap project }

/-- The basis functions with an attribute `support-radius`, MappingConfiguration.cpp:345-392. -/
def hasRadius (f : Function) : Bool :=
  f = .wendlandC0 || f = .wendlandC2 || f = .wendlandC4 || f = .wendlandC6 || f = .wendlandC8 ||
    f = .compactThinPlateSplinesC2 || f = .gaussian

/-- The basis functions with an attribute `shape-parameter`, MappingConfiguration.cpp:345-392. -/
def hasShape (f : Function) : Bool := f = .multiquadrics || f = .inverseMultiquadrics || f = .gaussian

/-- The function of a tag `basis-function:…`, its support radius and its shape parameter,
MappingConfiguration.cpp:507-524. -/
def readBasis (b : Build) (t : BasisTag) : Except Err (Function × Dbl × Dbl) := do
  let radius ← attr (hasRadius t.function) (if t.function = .gaussian then some .nan else none) (.fin 0)
    t.supportRadius
  let shape ← attr (hasShape t.function) (if t.function = .gaussian then some .nan else none) (.fin 0)
    t.shapeParameter
  if t.function = .gaussian then
    if (radius.isFinite && !shape.isFinite) || (shape.isFinite && !radius.isFinite) then
      if radius.isFinite && !shape.isFinite then .ok (t.function, radius, Dbl.divides b.k radius)
      else .ok (t.function, radius, shape)
    else .error .check
  else .ok (t.function, radius, shape)

/-- `xmlTagCallback` for a tag `basis-function:…`, MappingConfiguration.cpp:493-525. The tag is only known
below the mappings that need a basis function (C107), so that the first check cannot fail. -/
def basisTag (b : Build) (s : State) (t : BasisTag) : Except Err State :=
  match s.current with
  | none => .error .assert
  | some (kind, _, _, _) =>
    if requiresBasis kind = false then .error .check
    else if s.rbf.basis.isSome then .error .check
    else do
      let v ← readBasis b t
      .ok { s with rbf := { s.rbf with basis := some v } }

/-- The white space `std::stoi` skips. -/
def isSpace (c : Char) : Bool :=
  c = ' ' || c = '\t' || c = '\n' || c = '\x0b' || c = '\x0c' || c = '\r'

/-- The number at the beginning of a text and whether there is one. -/
def digits : Option ℕ → List Char → Option ℕ
  | acc, c :: l =>
    if c.isDigit then digits (some (acc.getD 0 * 10 + (c.toNat - '0'.toNat))) l else acc
  | acc, [] => acc

/-- `std::stoi`: skips white space, reads a sign and the digits that follow, and ignores the rest of the
text. No digits and numbers out of range are exceptions. -/
def stoi (l : List Char) : Except Err ℤ :=
  let l := l.dropWhile isSpace
  let n : Option ℤ := match l with
    | '-' :: r => (digits none r).map fun n => -(n : ℤ)
    | '+' :: r => (digits none r).map fun n => (n : ℤ)
    | r => (digits none r).map fun n => (n : ℤ)
  match n with
  | none => .error .check
  | some v => if -2147483648 ≤ v ∧ v ≤ 2147483647 then .ok v else .error .check

/-- The device of the text of the attribute `gpu-device-id`, MappingConfiguration.cpp:541-553. -/
def deviceId (l : List Char) : Except Err ℤ :=
  if l = "auto".toList then .ok (-1)
  else
    match stoi l with
    | .error e => .error e
    | .ok v => if 0 ≤ v then .ok v else .error .check

/-- The executors known below a mapping, MappingConfiguration.cpp:284-342. -/
def knowsExecutor (t : Kind) (e : Executor) : Bool :=
  match t, e with
  | .rbfDirect, .cpu | .rbfDirect, .cuda | .rbfDirect, .hip => true
  | .rbfIterative, .sycl => false
  | .rbfIterative, _ => true
  | .rbfPum, _ => true
  | _, _ => false

/-- What a tag `executor:…` says, MappingConfiguration.cpp:526-564, where the attributes are declared in
284-342. -/
def readExec (kind : Kind) (t : ExecutorTag) : Except Err Exec := do
  let gpu := t.executor = .cuda || t.executor = .hip || t.executor = .sycl
  let did ← attr gpu (some "0".toList) "0".toList t.device
  let device ← deviceId did
  let threads ← attr (t.executor = .omp) (some 0) 0 t.threads
  let offline ← attr (kind = .rbfPum && !(t.executor = .cpu)) (some false) true t.compute
  .ok ⟨t.executor, device, threads, offline⟩

/-- `xmlTagCallback` for a tag `executor:…`, MappingConfiguration.cpp:526-564. -/
def executorTag (s : State) (t : ExecutorTag) : Except Err State :=
  match s.current with
  | none => .error .assert
  | some (kind, _, _, _) =>
    if knowsExecutor kind t.executor = false then .error .check
    else do
      let e ← readExec kind t
      .ok { s with exec := some e }

/-- `xmlTagCallback` for the subtags. -/
def subTag (b : Build) (s : State) : Sub → Except Err State
  | .basis t => basisTag b s t
  | .executor t => executorTag s t

/-- What distinguishes the names of subtags. -/
def Sub.name : Sub → Function ⊕ Executor
  | .basis t => .inl t.function
  | .executor t => .inr t.executor

/-- `#ifndef PRECICE_WITH_CUDA` and so on, MappingConfiguration.cpp:869-892. -/
def Build.device (b : Build) : Executor → Bool
  | .cpu => true
  | .cuda => b.cuda
  | .hip => b.hip
  | .sycl => b.sycl
  | .omp => b.omp

/-- `finishRBFConfiguration`, MappingConfiguration.cpp:836-915. -/
def finishRbf (b : Build) (c : Rbf) (e : Exec) (dim : ℕ) (jit : Bool) : Except Err Method :=
  match c.basis with
  | none => .error .undef
  | some (f, radius, shape) =>
    if e.executor = .cpu then
      match c.solver with
      | .globalDirect => do
        let g ← constructRbf b f radius shape
        let dead ← deadAxes dim c.dead
        .ok (.direct g dead c.polynomial)
      | .globalIterative =>
        if b.petsc then do
          let g ← constructRbf b f radius shape
          let dead ← deadAxes dim c.dead
          .ok (.petsc g dead c.polynomial c.rtol)
        else .error .check
      | .pumDirect => do
        let g ← constructRbf b f radius shape
        makePum g c.polynomial (toUnsigned c.vertices) c.overlap c.project .cpu 0 0 true
    else if b.device e.executor = false then .error .check
    else
      let device := toUnsigned e.device
      let threads := if e.executor = .omp then toUnsigned e.threads else 0
      match c.solver with
      | .globalDirect =>
        if b.ginkgo then do
          let g ← constructRbf b f radius shape
          let dead ← deadAxes dim c.dead
          .ok (.ginkgo g dead c.polynomial none e.executor device threads)
        else .error .check
      | .globalIterative =>
        if b.ginkgo then do
          let g ← constructRbf b f radius shape
          let dead ← deadAxes dim c.dead
          .ok (.ginkgo g dead c.polynomial (some c.rtol) e.executor device threads)
        else .error .check
      | .pumDirect =>
        if b.kokkosKernels then
          if jit then .error .check
          else do
            let g ← constructRbf b f radius shape
            makePum g c.polynomial (toUnsigned c.vertices) c.overlap c.project e.executor device threads
              e.offline
        else .error .check

/-- `xmlEndTagCallback`, MappingConfiguration.cpp:820-834. -/
def closeTag (b : Build) (s : State) : Except Err State :=
  match s.current with
  | none => .error .assert
  | some (kind, dim, jit, m) =>
    if requiresBasis kind then
      if s.rbf.basis.isSome then do
        let m ← finishRbf b s.rbf (s.exec.getD {}) dim jit
        .ok { s with done := s.done ++ [⟨s.constraint, dim, m⟩], current := none, exec := none }
      else .error .check
    else
      match m with
      | none => .error .assert
      | some m => .ok { s with done := s.done ++ [⟨s.constraint, dim, m⟩], current := none }

/-- The subtags one after the other. -/
def subTags (b : Build) : State → List Sub → Except Err State
  | s, [] => .ok s
  | s, t :: l => do
    let s ← subTag b s t
    subTags b s l

/-- A tag with its subtags. That no subtag occurs twice (`OCCUR_NOT_OR_ONCE`) is checked by the parser,
after all subtags; here it is checked first, as one error is as good as another. -/
def mappingTag (b : Build) (s : State) (t : Tag) : Except Err State :=
  if (t.subs.map Sub.name).Nodup then do
    let s ← openTag s t
    let s ← subTags b s t.subs
    closeTag b s
  else .error .check

/-- The mappings of a participant. -/
def mappingTags (b : Build) : State → List Tag → Except Err State
  | s, [] => .ok s
  | s, t :: l => do
    let s ← mappingTag b s t
    mappingTags b s l

end Verif.Config.MapMethod
