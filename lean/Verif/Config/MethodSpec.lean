import Verif.Config.Method

/-!
# What the configuration of a mapping method means (C126)

Stated from the attributes and subtags of a tag only.
-/

set_option autoImplicit false

namespace Verif.Config.MapMethod

open Verif.Config.Part (Constraint Kind)

/-- The subtags `basis-function`. -/
def bases (l : List Sub) : List BasisTag := l.filterMap fun | .basis t => some t | _ => none
/-- The subtags `executor`. -/
def execs (l : List Sub) : List ExecutorTag := l.filterMap fun | .executor t => some t | _ => none

/-- The methods with radial basis functions. -/
def rbfKinds : List Kind := [.rbfPum, .rbfDirect, .rbfIterative, .rbfAlias]
/-- The basis functions with a support radius, apart from the Gaussian. -/
def compactFunctions : List Function :=
  [.wendlandC0, .wendlandC2, .wendlandC4, .wendlandC6, .wendlandC8, .compactThinPlateSplinesC2]

/-- A value that counts as given for a Gaussian: a finite one. -/
def Given (o : Option Dbl) : Prop := ∃ q, o = some (.fin q)

/-- The basis function a subtag describes. -/
def DescribesBasis (b : Build) (t : BasisTag) : Basis → Prop
  | .compact f r => f ∈ compactFunctions ∧ t.function = f ∧ t.supportRadius = some r
  | .shaped f c => f ∈ [.multiquadrics, .inverseMultiquadrics] ∧ t.function = f ∧ t.shapeParameter = some c
  | .plain f => f ∈ [.thinPlateSplines, .volumeSplines] ∧ t.function = f
  | .gaussian c r => t.function = .gaussian ∧ r = Dbl.divides b.k c ∧
      (t.shapeParameter = some c ∧ Given t.shapeParameter ∧ ¬ Given t.supportRadius ∨
        ∃ x, t.supportRadius = some x ∧ Given t.supportRadius ∧ ¬ Given t.shapeParameter ∧
          c = Dbl.divides b.k x)

/-- A basis function whose parameters make sense: positive, up to the tolerance. -/
def Sensible : Basis → Prop
  | .compact _ r => r.greaterZero = true
  | .gaussian c _ => c.greaterZero = true
  | .shaped f c => f = .inverseMultiquadrics → c.greaterZero = true
  | .plain _ => True

/-- The attributes of a basis function are those it has. -/
def BasisAttributes (t : BasisTag) : Prop :=
  (t.supportRadius ≠ none → t.function ∈ .gaussian :: compactFunctions) ∧
    (t.shapeParameter ≠ none → t.function ∈ [.gaussian, .multiquadrics, .inverseMultiquadrics])

/-- The executor of a mapping: the last one given. -/
def executorOf (t : Tag) : ExecutorTag := ((execs t.subs).getLast?).getD ⟨.cpu, none, none, none⟩

/-- The executor tags of a mapping are ones it knows with attributes they have. -/
structure ExecutorOk (k : Kind) (t : ExecutorTag) : Prop where
  known : k = .rbfDirect ∧ t.executor ∈ [.cpu, .cuda, .hip] ∨
    k = .rbfIterative ∧ t.executor ∈ [.cpu, .cuda, .hip, .omp] ∨ k = .rbfPum
  device : ∀ l, t.device = some l → t.executor ∈ [.cuda, .hip, .sycl] ∧ ∃ v, deviceId l = .ok v
  threads : t.threads ≠ none → t.executor = .omp
  mode : t.compute ≠ none → k = .rbfPum ∧ t.executor ≠ .cpu

/-- The axes of a mesh that are declared dead. -/
def deadOf (t : Tag) : List Bool := [t.xDead.getD false, t.yDead.getD false, t.zDead.getD false].take t.dim

/-- The backend is part of the build. -/
def Available (b : Build) (k : Kind) (e : Executor) : Prop :=
  b.device e = true ∧
    (if e = .cpu then k = .rbfIterative → b.petsc = true
     else if k = .rbfPum then b.kokkosKernels = true else b.ginkgo = true)

/-- The mappings that are possible. -/
structure Valid (b : Build) (t : Tag) : Prop where
  /-- only attributes the tag has -/
  dead : t.xDead ≠ none ∨ t.yDead ≠ none ∨ t.zDead ≠ none → t.kind ∈ [.rbfDirect, .rbfIterative, .rbfAlias]
  rtol : t.rtol ≠ none → t.kind = .rbfIterative
  polynomial : t.polynomial ≠ none → t.kind ∈ [.rbfDirect, .rbfIterative, .rbfPum]
  clusters : t.vertices ≠ none ∨ t.overlap ≠ none ∨ t.project ≠ none → t.kind = .rbfPum
  radius : t.radius ≠ none → t.kind = .coarseGraining
  profile : t.msProfile ≠ none ∨ t.msSection ≠ none → t.kind = .axial
  dimension : t.msDimension ≠ none ↔ t.kind = .axial
  type : t.msType ≠ none ↔ t.kind ∈ [.axial, .radial]
  axis : t.msAxis ≠ none ↔ t.kind ∈ [.axial, .radial]
  msRadius : t.msRadius ≠ none ↔ t.kind ∈ [.axial, .radial]
  /-- only subtags the tag has, each once -/
  subs : t.subs ≠ [] → t.kind ∈ rbfKinds
  once : ((bases t.subs).map (·.function)).Nodup ∧ ((execs t.subs).map (·.executor)).Nodup
  executors : ∀ e ∈ execs t.subs, ExecutorOk t.kind e
  /-- the polynomial is not part of the systems of the clusters -/
  integrated : t.polynomial = some .on → t.kind ≠ .rbfPum
  /-- the constraint is implemented -/
  projection : t.kind = .nearestProjection → t.constraint ≠ .scaledVolume
  cell : t.kind = .linearCell → t.constraint ≠ .scaledSurface
  conservative : t.kind ∈ [.gradient, .axial, .radial] → t.constraint ≠ .conservative
  /-- the parameters make sense -/
  coarse : t.kind = .coarseGraining → ∃ r, t.radius = some r ∧ r.positive = true
  basis : t.kind ∈ rbfKinds → ∃ x g, bases t.subs = [x] ∧ BasisAttributes x ∧ DescribesBasis b x g ∧ Sensible g
  alive : t.kind ∈ [.rbfDirect, .rbfIterative] → false ∈ deadOf t
  overlap : t.kind = .rbfPum → (t.overlap.getD (.fin (15 / 100))).belowOne = true
  vertices : t.kind = .rbfPum → toUnsigned (t.vertices.getD 50) ≠ 0
  /-- the build has what is needed -/
  available : t.kind ∈ rbfKinds → Available b t.kind (executorOf t).executor
  jit : t.kind = .rbfPum → (executorOf t).executor ≠ .cpu → t.jit = false

/-- The device a tag asks for: by default the first, for `auto` all. -/
def deviceOf (e : ExecutorTag) : ℕ :=
  match e.device with
  | none => 0
  | some l => match deviceId l with
    | .ok v => toUnsigned v
    | .error _ => 0

/-- The method a tag describes. -/
def Describes (b : Build) (t : Tag) : Method → Prop
  | .nearestNeighbor => t.kind = .nearestNeighbor
  | .nearestProjection => t.kind = .nearestProjection
  | .gradient => t.kind = .gradient
  | .linearCell => t.kind = .linearCell
  | .coarseGraining r => t.kind = .coarseGraining ∧ t.radius = some r
  | .axial d ty a r p s => t.kind = .axial ∧ t.msDimension = some d ∧ t.msType = some ty ∧ t.msAxis = some a ∧
      t.msRadius = some r ∧ p = t.msProfile.getD .uniform ∧ s = t.msSection.getD .circle
  | .radial ty a => t.kind = .radial ∧ t.msType = some ty ∧ t.msAxis = some a
  | .direct g dead p => t.kind = .rbfDirect ∧ (executorOf t).executor = .cpu ∧
      (∃ x, bases t.subs = [x] ∧ DescribesBasis b x g) ∧ dead = deadOf t ∧ p = t.polynomial.getD .separate
  | .petsc g dead p rtol => t.kind = .rbfIterative ∧ (executorOf t).executor = .cpu ∧
      (∃ x, bases t.subs = [x] ∧ DescribesBasis b x g) ∧ dead = deadOf t ∧ p = t.polynomial.getD .separate ∧
      rtol = t.rtol.getD (.fin (1 / 1000000000))
  | .ginkgo g dead p rtol e device threads => (executorOf t).executor = e ∧ e ≠ .cpu ∧
      (t.kind = .rbfDirect ∧ rtol = none ∨
        t.kind = .rbfIterative ∧ rtol = some (t.rtol.getD (.fin (1 / 1000000000)))) ∧
      (∃ x, bases t.subs = [x] ∧ DescribesBasis b x g) ∧ dead = deadOf t ∧ p = t.polynomial.getD .separate ∧
      device = deviceOf (executorOf t) ∧ threads = toUnsigned ((executorOf t).threads.getD 0)
  | .pum g p vertices overlap project e device threads offline =>
      (∃ x, bases t.subs = [x] ∧ DescribesBasis b x g) ∧ (executorOf t).executor = e ∧
      (e = .cpu → device = 0 ∧ threads = 0 ∧ offline = true) ∧
      (t.kind = .rbfPum ∧ p = t.polynomial.getD .separate ∧ vertices = toUnsigned (t.vertices.getD 50) ∧
          overlap = t.overlap.getD (.fin (15 / 100)) ∧ project = t.project.getD true ∧
          (e ≠ .cpu → device = deviceOf (executorOf t) ∧
            threads = toUnsigned ((executorOf t).threads.getD 0) ∧
            offline = (executorOf t).compute.getD false) ∨
        t.kind = .rbfAlias ∧ e = .cpu ∧ p = .separate ∧ vertices = 100 ∧ overlap = .fin (3 / 10) ∧
          project = true)

end Verif.Config.MapMethod
