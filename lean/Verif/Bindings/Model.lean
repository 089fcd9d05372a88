import Mathlib.Data.Int.Notation
import Mathlib.Data.Nat.Notation
import Mathlib.Data.Rat.Defs

/-!
# The bindings for C and Fortran (C131)

Model of `/repo/extras/bindings/c/src/preciceC.cpp` and `/repo/extras/bindings/fortran/src/preciceFortran.cpp`: functions
that call the C++ API on a global participant. The C++ API is arbitrary: the theorems hold for every behaviour of it.

Simplifications: the version string and the deprecated names of the Fortran functions (lines 580-638, they only call the
functions of the new names) are left out; numbers are rational; exceptions other than `precice::Error` do not occur.
-/

set_option autoImplicit false

namespace Verif.Bindings

/-- Calls of the functions of the C++ API with their arguments, `precice::Participant`. `span`s are lists, a `span` to
be filled is its length. `ν` is the type of names: the bindings have the same functions with other types of names. -/
inductive Request (ν : Type) where
  | initialize
  | advance (dt : ℚ)
  | finalize
  | getMeshDimensions (mesh : ν)
  | getDataDimensions (mesh data : ν)
  | isCouplingOngoing
  | isTimeWindowComplete
  | getMaxTimeStepSize
  | requiresInitialData
  | requiresWritingCheckpoint
  | requiresReadingCheckpoint
  | requiresMeshConnectivityFor (mesh : ν)
  | resetMesh (mesh : ν)
  | setMeshVertex (mesh : ν) (position : List ℚ)
  | setMeshVertices (mesh : ν) (positions : List ℚ) (ids : ℕ)
  | getMeshVertexSize (mesh : ν)
  | setMeshEdge (mesh : ν) (a b : ℤ)
  | setMeshEdges (mesh : ν) (vertices : List ℤ)
  | setMeshTriangle (mesh : ν) (a b c : ℤ)
  | setMeshTriangles (mesh : ν) (vertices : List ℤ)
  | setMeshQuad (mesh : ν) (a b c d : ℤ)
  | setMeshQuads (mesh : ν) (vertices : List ℤ)
  | setMeshTetrahedron (mesh : ν) (a b c d : ℤ)
  | setMeshTetrahedra (mesh : ν) (vertices : List ℤ)
  | writeData (mesh data : ν) (ids : List ℤ) (values : List ℚ)
  | readData (mesh data : ν) (ids : List ℤ) (time : ℚ) (values : ℕ)
  | writeAndMapData (mesh data : ν) (coordinates values : List ℚ)
  | mapAndReadData (mesh data : ν) (coordinates : List ℚ) (time : ℚ) (values : ℕ)
  | requiresGradientDataFor (mesh data : ν)
  | writeGradientData (mesh data : ν) (ids : List ℤ) (gradients : List ℚ)
  | setMeshAccessRegion (mesh : ν) (box : List ℚ)
  | getMeshVertexIDsAndCoordinates (mesh : ν) (ids coordinates : ℕ)
  | startProfilingSection (name : ν)
  | stopLastProfilingSection
deriving DecidableEq

/-- What the functions of the API return or fill in -/
inductive Response where
  | unit
  | int (i : ℤ)
  | bool (b : Bool)
  | double (q : ℚ)
  | ints (l : List ℤ)
  | doubles (l : List ℚ)
  | both (ids : List ℤ) (coordinates : List ℚ)
deriving DecidableEq

/-- The arguments of the constructors; the communicator is a handle. -/
structure Create (ν : Type) where
  name : ν
  config : ν
  rank : ℤ
  size : ℤ
  communicator : Option ℕ
deriving DecidableEq

/-- A behaviour of the C++ API: `none` is an exception `precice::Error`. -/
structure Api (σ : Type) where
  create : Create String → Option σ
  call : σ → Request String → Option (Response × σ)

/-- A call of a function of the bindings: arrays are pointers to the memory of the solver, which has a size, and `size` is
an `int`. -/
inductive Call (ν : Type) where
  | initialize
  | advance (dt : ℚ)
  | finalize
  | getMeshDimensions (mesh : ν)
  | getDataDimensions (mesh data : ν)
  | isCouplingOngoing
  | isTimeWindowComplete
  | getMaxTimeStepSize
  | requiresInitialData
  | requiresWritingCheckpoint
  | requiresReadingCheckpoint
  | requiresMeshConnectivityFor (mesh : ν)
  | resetMesh (mesh : ν)
  | setMeshVertex (mesh : ν) (position : List ℚ)
  | setMeshVertices (mesh : ν) (size : ℤ) (positions : List ℚ) (ids : ℕ)
  | getMeshVertexSize (mesh : ν)
  | setMeshEdge (mesh : ν) (a b : ℤ)
  | setMeshEdges (mesh : ν) (size : ℤ) (vertices : List ℤ)
  | setMeshTriangle (mesh : ν) (a b c : ℤ)
  | setMeshTriangles (mesh : ν) (size : ℤ) (vertices : List ℤ)
  | setMeshQuad (mesh : ν) (a b c d : ℤ)
  | setMeshQuads (mesh : ν) (size : ℤ) (vertices : List ℤ)
  | setMeshTetrahedron (mesh : ν) (a b c d : ℤ)
  | setMeshTetrahedra (mesh : ν) (size : ℤ) (vertices : List ℤ)
  | writeData (mesh data : ν) (size : ℤ) (ids : List ℤ) (values : List ℚ)
  | readData (mesh data : ν) (size : ℤ) (ids : List ℤ) (time : ℚ) (values : ℕ)
  | writeAndMapData (mesh data : ν) (size : ℤ) (coordinates values : List ℚ)
  | mapAndReadData (mesh data : ν) (size : ℤ) (coordinates : List ℚ) (time : ℚ) (values : ℕ)
  | requiresGradientDataFor (mesh data : ν)
  | writeGradientData (mesh data : ν) (size : ℤ) (ids : List ℤ) (gradients : List ℚ)
  | setMeshAccessRegion (mesh : ν) (box : List ℚ)
  | getMeshVertexIDsAndCoordinates (mesh : ν) (size : ℤ) (ids coordinates : ℕ)
  | startProfilingSection (name : ν)
  | stopLastProfilingSection
deriving DecidableEq

/-- How a function can end without returning -/
inductive Stop where
  /-- `std::abort()`, what all functions do with a `precice::Error` -/
  | abort
  /-- undefined behaviour -/
  | undef
deriving DecidableEq

/-- Code of the bindings: with the global variable `impl`, preciceC.cpp:20, preciceFortran.cpp:28 -/
abbrev M (σ α : Type) : Type := Option σ → Except Stop (α × Option σ)

variable {σ α β : Type}

/-- returning -/
def ret (a : α) : M σ α := fun s => .ok (a, s)

/-- one after the other -/
def andThen (x : M σ α) (f : α → M σ β) : M σ β := fun s =>
  match x s with
  | .error e => .error e
  | .ok (a, s) => f a s

/-- ending -/
def stop (e : Stop) : M σ α := fun _ => .error e

/-- `PRECICE_CHECK(impl != nullptr, errormsg)`: the error is caught by the function. -/
def checked : M σ Unit := fun s =>
  match s with
  | none => .error .abort
  | some s => .ok ((), some s)

/-- `impl->…(…)`: undefined if `impl` is null -/
def api (A : Api σ) (r : Request String) : M σ Response := fun s =>
  match s with
  | none => .error .undef
  | some s =>
    match A.call s r with
    | none => .error .abort
    | some (x, s) => .ok (x, some s)

/-- `impl.reset()` -/
def resetImpl : M σ Unit := fun _ => .ok ((), none)

/-- the product of two numbers of type `int`: undefined if it does not fit -/
def imul (a b : ℤ) : M σ ℤ :=
  if -2 ^ 31 ≤ a * b ∧ a * b < 2 ^ 31 then ret (a * b) else stop .undef

/-- the product of two numbers of type `unsigned long` -/
def umul (a b : ℤ) : ℤ := (a * b) % 2 ^ 64

/-- `static_cast<unsigned long>` of an `int` -/
def ulong (a : ℤ) : ℤ := a % 2 ^ 64

/-- `{pointer, size}`: a `span` for reading. A span that is larger than the memory of the solver counts as undefined: the
API cannot know the memory and reads all of it. -/
def span (l : List α) (size : ℤ) : M σ (List α) :=
  if 0 ≤ size ∧ size ≤ l.length then ret (l.take size.toNat) else stop .undef

/-- `{pointer, size}`: a `span` for writing -/
def outSpan (memory : ℕ) (size : ℤ) : M σ ℕ :=
  if 0 ≤ size ∧ size ≤ memory then ret size.toNat else stop .undef

/-- The dimensions returned by the API; another response does not exist. -/
def asInt : Response → M σ ℤ
  | .int i => ret i
  | _ => stop .undef

/-- A truth value as 1 or 0; another response does not exist. -/
def asFlag : Response → M σ Response
  | .bool b => ret (.int (if b then 1 else 0))
  | _ => stop .undef

/-- `impl->getMeshDimensions(meshName)` -/
def meshDims (A : Api σ) (m : String) : M σ ℤ := andThen (api A (.getMeshDimensions m)) asInt

/-- `impl->getDataDimensions(meshName, dataName)` -/
def dataDims (A : Api σ) (m d : String) : M σ ℤ := andThen (api A (.getDataDimensions m d)) asInt

/-- The functions `precicec_…`, preciceC.cpp:60-442, line numbers below. Five of them do not check `impl`. -/
def cCall (A : Api σ) : Call String → M σ Response
  -- 60-66
  | .initialize => andThen checked fun _ => api A .initialize
  -- 68-74
  | .advance dt => andThen checked fun _ => api A (.advance dt)
  -- 76-83
  | .finalize =>
    andThen checked fun _ => andThen (api A .finalize) fun x => andThen resetImpl fun _ => ret x
  -- 85-92
  | .getMeshDimensions m => andThen checked fun _ => api A (.getMeshDimensions m)
  -- 94-101
  | .getDataDimensions m d => andThen checked fun _ => api A (.getDataDimensions m d)
  -- 103-113
  | .isCouplingOngoing => andThen checked fun _ => andThen (api A .isCouplingOngoing) asFlag
  -- 115-125
  | .isTimeWindowComplete => andThen checked fun _ => andThen (api A .isTimeWindowComplete) asFlag
  -- 127-133, no check
  | .getMaxTimeStepSize => api A .getMaxTimeStepSize
  -- 135-142
  | .requiresInitialData => andThen checked fun _ => andThen (api A .requiresInitialData) asFlag
  -- 144-151
  | .requiresWritingCheckpoint => andThen checked fun _ => andThen (api A .requiresWritingCheckpoint) asFlag
  -- 153-160
  | .requiresReadingCheckpoint => andThen checked fun _ => andThen (api A .requiresReadingCheckpoint) asFlag
  -- 162-172
  | .requiresMeshConnectivityFor m =>
    andThen checked fun _ => andThen (api A (.requiresMeshConnectivityFor m)) asFlag
  -- 174-180
  | .resetMesh m => andThen checked fun _ => api A (.resetMesh m)
  -- 182-192
  | .setMeshVertex m p =>
    andThen checked fun _ => andThen (meshDims A m) fun d => andThen (span p (ulong d)) fun p =>
      api A (.setMeshVertex m p)
  -- 194-206
  | .setMeshVertices m n p ids =>
    andThen checked fun _ => andThen (meshDims A m) fun d => andThen (imul d n) fun k =>
      andThen (span p (ulong k)) fun p => andThen (outSpan ids (ulong n)) fun ids => api A (.setMeshVertices m p ids)
  -- 208-216
  | .getMeshVertexSize m => andThen checked fun _ => api A (.getMeshVertexSize m)
  -- 218-227
  | .setMeshEdge m a b => andThen checked fun _ => api A (.setMeshEdge m a b)
  -- 229-239
  | .setMeshEdges m n v =>
    andThen checked fun _ => andThen (span v (umul (ulong n) 2)) fun v => api A (.setMeshEdges m v)
  -- 241-251
  | .setMeshTriangle m a b c => andThen checked fun _ => api A (.setMeshTriangle m a b c)
  -- 253-263
  | .setMeshTriangles m n v =>
    andThen checked fun _ => andThen (span v (umul (ulong n) 3)) fun v => api A (.setMeshTriangles m v)
  -- 265-276
  | .setMeshQuad m a b c d => andThen checked fun _ => api A (.setMeshQuad m a b c d)
  -- 278-288
  | .setMeshQuads m n v =>
    andThen checked fun _ => andThen (span v (umul (ulong n) 4)) fun v => api A (.setMeshQuads m v)
  -- 290-301
  | .setMeshTetrahedron m a b c d => andThen checked fun _ => api A (.setMeshTetrahedron m a b c d)
  -- 303-313
  | .setMeshTetrahedra m n v =>
    andThen checked fun _ => andThen (span v (umul (ulong n) 4)) fun v => api A (.setMeshTetrahedra m v)
  -- 315-327
  | .writeData m d n ids v =>
    andThen checked fun _ => andThen (dataDims A m d) fun k => andThen (imul n k) fun k =>
      andThen (span ids (ulong n)) fun ids => andThen (span v (ulong k)) fun v => api A (.writeData m d ids v)
  -- 329-342
  | .readData m d n ids t v =>
    andThen checked fun _ => andThen (dataDims A m d) fun k => andThen (imul n k) fun k =>
      andThen (span ids (ulong n)) fun ids => andThen (outSpan v (ulong k)) fun v => api A (.readData m d ids t v)
  -- 344-357
  | .writeAndMapData m d n x v =>
    andThen checked fun _ => andThen (meshDims A m) fun c => andThen (imul n c) fun c =>
      andThen (dataDims A m d) fun k => andThen (imul n k) fun k =>
        andThen (span x (ulong c)) fun x => andThen (span v (ulong k)) fun v => api A (.writeAndMapData m d x v)
  -- 359-373
  | .mapAndReadData m d n x t v =>
    andThen checked fun _ => andThen (meshDims A m) fun c => andThen (imul n c) fun c =>
      andThen (dataDims A m d) fun k => andThen (imul n k) fun k =>
        andThen (span x (ulong c)) fun x => andThen (outSpan v (ulong k)) fun v => api A (.mapAndReadData m d x t v)
  -- 375-386
  | .requiresGradientDataFor m d =>
    andThen checked fun _ => andThen (api A (.requiresGradientDataFor m d)) asFlag
  -- 388-401
  | .writeGradientData m d n ids g =>
    andThen checked fun _ => andThen (dataDims A m d) fun k => andThen (meshDims A m) fun c =>
      andThen (imul k c) fun k => andThen (imul n k) fun k =>
        andThen (span ids (ulong n)) fun ids => andThen (span g (ulong k)) fun g => api A (.writeGradientData m d ids g)
  -- 408-416, no check
  | .setMeshAccessRegion m b =>
    andThen (meshDims A m) fun d => andThen (span b (umul (ulong d) 2)) fun b => api A (.setMeshAccessRegion m b)
  -- 418-428, no check
  | .getMeshVertexIDsAndCoordinates m n ids x =>
    andThen (meshDims A m) fun d => andThen (imul d n) fun k =>
      andThen (outSpan ids (ulong n)) fun ids => andThen (outSpan x (ulong k)) fun x =>
        api A (.getMeshVertexIDsAndCoordinates m ids x)
  -- 430-435, no check
  | .startProfilingSection n => api A (.startProfilingSection n)
  -- 437-442, no check
  | .stopLastProfilingSection => api A .stopLastProfilingSection

/-- `precicec_createParticipant` and `precicec_createParticipant_withCommunicator`, preciceC.cpp:28-58 -/
def cCreate (A : Api σ) (c : Create String) : M σ Unit := fun s =>
  match s with
  | some _ => .error .abort
  | none =>
    match A.create c with
    | none => .error .abort
    | some s => .ok ((), some s)

/-- `strippedLength`, preciceFortran.cpp:422-431: from the last character on, as long as the character is a blank or 0
and the index is not negative. The character is read before the index is checked: the character before the string is
read if all characters are blank, which is undefined. The list is the string, reversed. -/
def strippedReverse : List Char → Option (List Char)
  | [] => none
  | c :: cs => if c = ' ' ∨ c = Char.ofNat 0 then strippedReverse cs else some (c :: cs)

/-- `strippedStringView`, preciceFortran.cpp:433-436 -/
def stripped (s : List Char) : M σ String :=
  match strippedReverse s.reverse with
  | none => stop .undef
  | some cs => ret (String.ofList cs.reverse)

/-- `precicef_create_` and `precicef_create_with_communicator_` (with MPI), preciceFortran.cpp:44-93. There is no check
of `impl`: the new participant is constructed, then the old one is destructed. The destructor of the old one is left out.
Without MPI the communicator is ignored. -/
def fCreate (A : Api σ) (c : Create (List Char)) : M σ Unit :=
  andThen (stripped c.name) fun n => andThen (stripped c.config) fun f => fun _ =>
    match A.create ⟨n, f, c.rank, c.size, c.communicator⟩ with
    | none => .error .abort
    | some s => .ok ((), some s)

/-- The functions `precicef_…`, preciceFortran.cpp:95-576, line numbers below. Results are returned through pointers. -/
def fCall (A : Api σ) : Call (List Char) → M σ Response
  -- 95-101
  | .initialize => andThen checked fun _ => api A .initialize
  -- 103-110
  | .advance dt => andThen checked fun _ => api A (.advance dt)
  -- 112-119
  | .finalize =>
    andThen checked fun _ => andThen (api A .finalize) fun x => andThen resetImpl fun _ => ret x
  -- 121-130
  | .getMeshDimensions m => andThen checked fun _ => andThen (stripped m) fun m => api A (.getMeshDimensions m)
  -- 132-143
  | .getDataDimensions m d =>
    andThen checked fun _ => andThen (stripped m) fun m => andThen (stripped d) fun d =>
      api A (.getDataDimensions m d)
  -- 145-156
  | .isCouplingOngoing => andThen checked fun _ => andThen (api A .isCouplingOngoing) asFlag
  -- 158-169
  | .isTimeWindowComplete => andThen checked fun _ => andThen (api A .isTimeWindowComplete) asFlag
  -- 171-178
  | .getMaxTimeStepSize => andThen checked fun _ => api A .getMaxTimeStepSize
  -- 180-187
  | .requiresInitialData => andThen checked fun _ => andThen (api A .requiresInitialData) asFlag
  -- 189-196
  | .requiresWritingCheckpoint => andThen checked fun _ => andThen (api A .requiresWritingCheckpoint) asFlag
  -- 198-205
  | .requiresReadingCheckpoint => andThen checked fun _ => andThen (api A .requiresReadingCheckpoint) asFlag
  -- 207-220
  | .requiresMeshConnectivityFor m =>
    andThen checked fun _ => andThen (stripped m) fun m => andThen (api A (.requiresMeshConnectivityFor m)) asFlag
  -- 222-230
  | .resetMesh m => andThen checked fun _ => andThen (stripped m) fun m => api A (.resetMesh m)
  -- 232-244
  | .setMeshVertex m p =>
    andThen checked fun _ => andThen (stripped m) fun m => andThen (meshDims A m) fun d =>
      andThen (span p (ulong d)) fun p => api A (.setMeshVertex m p)
  -- 257-270
  | .setMeshVertices m n p ids =>
    andThen checked fun _ => andThen (stripped m) fun m => andThen (meshDims A m) fun d => andThen (imul d n) fun k =>
      andThen (span p (ulong k)) fun p => andThen (outSpan ids (ulong n)) fun ids => api A (.setMeshVertices m p ids)
  -- 246-255
  | .getMeshVertexSize m => andThen checked fun _ => andThen (stripped m) fun m => api A (.getMeshVertexSize m)
  -- 272-282
  | .setMeshEdge m a b => andThen checked fun _ => andThen (stripped m) fun m => api A (.setMeshEdge m a b)
  -- 284-295
  | .setMeshEdges m n v =>
    andThen checked fun _ => andThen (stripped m) fun m => andThen (span v (umul (ulong n) 2)) fun v =>
      api A (.setMeshEdges m v)
  -- 297-308
  | .setMeshTriangle m a b c =>
    andThen checked fun _ => andThen (stripped m) fun m => api A (.setMeshTriangle m a b c)
  -- 310-321
  | .setMeshTriangles m n v =>
    andThen checked fun _ => andThen (stripped m) fun m => andThen (span v (umul (ulong n) 3)) fun v =>
      api A (.setMeshTriangles m v)
  -- 323-335
  | .setMeshQuad m a b c d =>
    andThen checked fun _ => andThen (stripped m) fun m => api A (.setMeshQuad m a b c d)
  -- 337-348
  | .setMeshQuads m n v =>
    andThen checked fun _ => andThen (stripped m) fun m => andThen (span v (umul (ulong n) 4)) fun v =>
      api A (.setMeshQuads m v)
  -- 350-362
  | .setMeshTetrahedron m a b c d =>
    andThen checked fun _ => andThen (stripped m) fun m => api A (.setMeshTetrahedron m a b c d)
  -- 364-375
  | .setMeshTetrahedra m n v =>
    andThen checked fun _ => andThen (stripped m) fun m => andThen (span v (umul (ulong n) 4)) fun v =>
      api A (.setMeshTetrahedra m v)
  -- 377-396
  | .writeData m d n ids v =>
    andThen checked fun _ => andThen (stripped m) fun m => andThen (stripped d) fun d =>
      andThen (dataDims A m d) fun k => andThen (imul n k) fun k =>
        andThen (span ids (ulong n)) fun ids => andThen (span v (ulong k)) fun v => api A (.writeData m d ids v)
  -- 398-420
  | .readData m d n ids t v =>
    andThen checked fun _ => andThen (stripped m) fun m => andThen (stripped d) fun d =>
      andThen (dataDims A m d) fun k => andThen (imul n k) fun k =>
        andThen (span ids (ulong n)) fun ids => andThen (outSpan v (ulong k)) fun v => api A (.readData m d ids t v)
  -- 484-504
  | .writeAndMapData m d n x v =>
    andThen checked fun _ => andThen (stripped m) fun m => andThen (stripped d) fun d =>
      andThen (meshDims A m) fun c => andThen (imul n c) fun c => andThen (dataDims A m d) fun k =>
        andThen (imul n k) fun k => andThen (span x (ulong c)) fun x => andThen (span v (ulong k)) fun v =>
          api A (.writeAndMapData m d x v)
  -- 506-529
  | .mapAndReadData m d n x t v =>
    andThen checked fun _ => andThen (stripped m) fun m => andThen (stripped d) fun d =>
      andThen (meshDims A m) fun c => andThen (imul n c) fun c => andThen (dataDims A m d) fun k =>
        andThen (imul n k) fun k => andThen (span x (ulong c)) fun x => andThen (outSpan v (ulong k)) fun v =>
          api A (.mapAndReadData m d x t v)
  -- 445-459
  | .requiresGradientDataFor m d =>
    andThen checked fun _ => andThen (stripped m) fun m => andThen (stripped d) fun d =>
      andThen (api A (.requiresGradientDataFor m d)) asFlag
  -- 461-482
  | .writeGradientData m d n ids g =>
    andThen checked fun _ => andThen (stripped m) fun m => andThen (stripped d) fun d =>
      andThen (meshDims A m) fun c => andThen (dataDims A m d) fun k =>
        andThen (imul c k) fun k => andThen (imul n k) fun k =>
          andThen (span ids (ulong n)) fun ids => andThen (span g (ulong k)) fun g =>
            api A (.writeGradientData m d ids g)
  -- 531-542
  | .setMeshAccessRegion m b =>
    andThen checked fun _ => andThen (stripped m) fun m => andThen (meshDims A m) fun d => andThen (imul d 2) fun k =>
      andThen (span b (ulong k)) fun b => api A (.setMeshAccessRegion m b)
  -- 544-557
  | .getMeshVertexIDsAndCoordinates m n ids x =>
    andThen checked fun _ => andThen (stripped m) fun m => andThen (meshDims A m) fun d => andThen (imul d n) fun k =>
      andThen (outSpan ids (ulong n)) fun ids => andThen (outSpan x (ulong k)) fun x =>
        api A (.getMeshVertexIDsAndCoordinates m ids x)
  -- 559-568
  | .startProfilingSection n =>
    andThen checked fun _ => andThen (stripped n) fun n => api A (.startProfilingSection n)
  -- 570-576
  | .stopLastProfilingSection => andThen checked fun _ => api A .stopLastProfilingSection

end Verif.Bindings
