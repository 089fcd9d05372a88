# Design of the preCICE model

## 1. What this is

A Lean 4 model of the coupling logic of preCICE (`/repo`, pinned commit), a set of
specifications stated in terms of what a user of the API can observe, and proofs
that the model meets them for all inputs / states / executions.
`properties.jsonl` lists the properties, `MANIFEST.json` maps each one to theorems.

## 2. Trusted base

* The Lean 4.33.0 kernel; axioms `propext`, `Classical.choice`, `Quot.sound` only
  (section 6 records the result of `#print axioms`). No own axioms, no `sorry`,
  no `native_decide`, no `bv_decide`.
* Mathlib (as installed) for ordered fields, finite sums, matrices and tactics.
* The translation from C++ to Lean, done by hand. Every model definition cites the
  file and line range it transcribes and says where it simplifies.

* Library code that is called but not part of `/repo`: `Eigen/unsupported/Splines` (knots, span, basis functions) is
  transcribed from its published source; factorizations and linear solvers of Eigen are parameters with the property
  their documentation states, as hypotheses of the theorems that need them (`Bspline.Solver.Exact`, `exists_solver`).

### Global modelling decisions

1. **Numbers.** `double` is modelled by an exact ordered field (`ℚ` for times,
   a generic linear ordered field or `ℝ` for geometry and data). The
   *tolerance comparisons* of `math/differences.hpp` are kept verbatim
   (`tol = 10^-14`), so statements that depend on the tolerance are proved with
   it. Rounding is not modelled. `utils::DoubleAggregator` (compensated sum) is
   an exact sum in the model.
2. **Assertions and errors.** `PRECICE_CHECK` failures are a distinct `error`
   outcome. `PRECICE_ASSERT` failures, out-of-bounds accesses, null dereferences
   and reads of uninitialised memory are a separate outcome `ub` where the
   property is about them; elsewhere the asserted condition is a hypothesis.
3. **Communication.** Channels are reliable FIFO queues, sends do not block,
   receives block. Participants are event streams produced by the modelled
   scheme functions.
4. **Convergence verdicts / numerical residuals** are arbitrary inputs (oracles)
   in the control-flow model; the measures and accelerations that compute them
   are modelled separately.
5. The text of profiling files, tokenizing of XML, the text of exported files, the byte transport of MPI and sockets, the linear
   algebra inside of PETSc and Ginkgo, Boost.Log beyond its documentation, and the interpreter of Python actions are not modelled.

## 3. Module plan

| module | models | properties |
|---|---|---|
| `Time/*` | `math/differences.hpp`, `TimeHandler` | C01-C05 |
| `Scheme/*` | `BaseCouplingScheme` control flow | C01-C13 |
| `Protocol/*` | serial, parallel, multi schemes as message traces over FIFO channels | C14-C19, C22 |
| `Compositional/*` | `CompositionalCouplingScheme`, networks of explicit schemes | C20, C21, C101 |
| `Waveform/*` | `time::Waveform`, `math::Bspline`, `CouplingData` | C23-C31, C111 |
| `Api/*` | `ParticipantImpl` guards, `MultiLock`, write buffers, mesh API, path of the data from write to read, direct access to received meshes | C31-C37, C85, C89, C90, C104, C112 |
| `Mesh/*` | `mesh::Mesh`, `BoundingBox`, `Filter`, primitives | C34, C38-C42, C88, C91 |
| `Log/*` | log files of implicit coupling | C121 |
| `Api/Actions*` | actions on the path of coupling data | C122 |
| `Mapping/*` | nearest neighbour, barycentric, gradient, scaled, multiscale, `DataContext`, radial basis functions, partition of unity, clustering, basis functions, coarse graining, local mappings in parallel, positive definiteness, iterative radial basis functions, partition of unity on a device | C43-C56, C95-C100, C113-C115, C120, C127, C128 |
| `Dist/*` | partitioning, ownership, distribution of received meshes, two-level initialization, gather-scatter, point-to-point, collectives | C57-C64, C112, C116 |
| `Com/*` | serialization, connection files, socket send queue, ring connection | C65-C70 |
| `Accel/*` | relaxation, Aitken, quasi-Newton bookkeeping, preconditioner, QR | C71-C79, C92-C94, C102, C103, C105 |
| `Profiling/*` | events, their registry and the file, profiling sections | C130 |
| `Logging/*` | sinks of the log, their configuration and what is written | C132 |
| `Mpi/*` | life of MPI and PETSc in a process, communicators of participants | C133 |
| `Remesh/*` | samples of one data set at both participants when meshes are reset | C134 |
| `Ports/*` | connecting the ranks of two participants with sockets and MPI ports | C135 |
| `Doc/*` | the printed reference of the configuration: DTD, headings and links of the Markdown reference | C136 |
| `Bindings/*` | the bindings for C and Fortran over an arbitrary C++ API | C131 |
| `Config/*` | reading of values from the configuration, validation of tags, creation of coupling schemes, configuration of participants, accelerations, actions, communications, mapping methods, data and meshes; Python actions | C106-C109, C119, C123-C126, C129 |
| `Startup/*` | connections, meshes and distributions in `initialize()`, end in `finalize()` | C110 |
| `Export/*` | exporters: when, where and what they write | C117, C118 |
| `Misc/*` | convergence measures, watch points/integrals, actions, ids, strings | C80-C87 |

## 4. Per property plan

* C01 TimeHandler as a state machine over `ℚ`; induction over lists of accepted
  steps; spec: closed formula for the time after a list of windows.
* C02 case analysis of `addComputedTime` on all states satisfying the invariant.
* C03 invariant: progress below window end by more than tol at call boundaries.
* C04 invariant relating counter, start time and finished flag; induction over
  executions.
* C05, C06, C07, C12, C13 scheme step relation; ghost variable recording the time
  of the last write request; induction over executions.
* C08 action set model; both directions.
* C09, C10 iteration counter invariant for arbitrary verdict oracle.
* C11 `measureConvergence` loop versus a first-order spec over the list of measures.
* C14-C17 participants are programs emitting send/recv events; proof that the two
  event streams are dual, plus a generic theorem: dual streams over FIFO channels
  always progress to completion under every schedule.
* C18 verdict streams of both sides equal; corollary of the trace duality with
  message payloads.
* C19 serial scheme with sizes as payloads.
* C20, C21 compositional `firstExchange/secondExchange` with lists of schemes;
  C20 also proves the negation for misaligned window sizes.
* C22 product of protocol model with payloads carrying (window, iteration) tags.
* C23-C29 list model of the sample store with tolerance comparisons, B-spline basis
  for degree 1, partition of unity for all degrees.
* C30 cached interpolant as explicit state; coherent for all operations but
  `setAllSamples`, for which the negation is proved.
* C31 guard of `readData`.
* C32, C33 buffer as list of columns, fold of writes.
* C34-C37 API state machine.
* C38-C42 list model of meshes.
* C43-C54 mapping tables as functions; finite sums; geometry over ordered fields. C51 starts at `writeGradientData`: the
  block of numbers per vertex, its place in memory, the column of the matrix the mapping takes
  or `ℝ`.
* C55, C56 multiscale mappings; C55 negation with witness.
* C57 prefix sums. C58 the two-round assignment as a fold. C59 lexicographic
  minimum under the hypothesis that the sharers see each other; negation without.
* C60-C62 vertex distributions as maps rank → list of global ids.
* C63, C64 fold over ranks, commutativity of addition.
* C65-C67 round-trip theorems with explicit parsers.
* C68 file-system transition system with crash; invariant.
* C69 queue automaton; refinement to a list.
* C70 waiting-for relation on a ring has no cycle.
* C71, C72 algebra over fields. C73-C75 lists of window counters, ghost column
  origins. C76 clamp/scale over stacked vectors. C77, C78 weights. C79 matrices.
* C80-C91 direct models.
* C92 affine maps over `ℝ`, normal equations of the weighted QR.
* C93 model of IMVJ on top of the base class model (`Accel/IMVJ`), specification `SecantUpdate`
  (secant equations, difference to the kept Jacobian vanishes on the weighted complement); invariant
  `IMVJ.Inv` over all histories, minimality and exactness as consequences; counterexamples as concrete runs.
* C94 `Accel/ParallelProduct*`: the ranks are interaction trees which exchange raw matrices. `Net/Trace` shows that programs
  with known, ranked traces complete; the ring has such traces. Reduction and distribution with the star tools. Specification:
  the matrix product of Mathlib, with rows and columns indexed by the rank and the position on the rank.
* C95 Mathlib matrices over `ℝ`; the decomposition is an exact inverse, the pivoted
  QR of the polynomial an arbitrary valid pivot choice.
* C96 `Mapping/RbfParallel*`: the ranks are interaction trees around the C95 solver. `RbfParallelRun` follows the gather and
  scatter loops with blocking sends, `RbfRenumber` shows that neither direction depends on the numbering, and
  `RbfParallelProps` compares with the solver of the serial run.
* C97 `Mapping/Pum*`: clusters built with the C95 solver on the vertices in a ball, weights set
  as in the code (an unset or out-of-range weight is `none`); the specification is Shepard's formula over
  the local interpolants. The just-in-time caches are modelled; the adjoint property is a pairing
  argument over the sequence of writes. Not modelled: the GPU variant, gradient data.
* C98 `Mapping/Basis*`: the formulas over `ℝ`, smoothness as `ContDiff` of the even extension, derivatives from
  Mathlib's calculus; `pow_int` is modelled as its loop.
* C99 `Mapping/Clustering*`: the whole of `createClustering` on one rank, the nearest-vertex search is any function
  returning a closest vertex. Coverage is a geometric argument about the grid of centers; the projected variant is
  refuted by a concrete mesh.
* C100 `Mapping/CoarseGraining*`: the writes as a fold over particles and found vertices, the kernel over `ℝ`; the
  normalisation is a Lebesgue integral over `EuclideanSpace ℝ (Fin 3)`.
* C101 `Net/Script`, `Compositional/Network*`: every participant is the interaction tree of its composition and a solver
  loop. `Net/Script` shows that programs which follow fixed lists of sends and receives complete if the operations have
  ranks that increase along every program and from every send to its receive. `NetworkLocal/Loop/Run` show which list a
  participant follows and what it observes; `NetworkRank` gives the ranks (turn, level, phase, scheme, position).
  `Result` in `NetworkProps` is the specification. `NetworkDeadlock` proves that cycles deadlock, `NetworkExamples` has
  the counterexamples for the other conditions.
* C102 `Accel/SVD*`: Gram-Schmidt with dropped columns, update, truncation and restart as functions on matrices over `ℝ`; the
  decomposition of the small matrix is a parameter with the documented property of Eigen's class, which `exists_solver`
  shows to be satisfiable. Specification: the represented matrix, errors in the operator norm of Mathlib.
* C103 `Accel/RSLS*`: the matrices for RS-LS beside the state of C93; the factors they give replace the arbitrary ones of
  C93, so a run is also a run of that model. Specification: `SecantUpdate` of C93 with the zero matrix, and the window
  numbers the columns carry.
* C104 `Api/DataPath*`: the storages of writer and reader of one data as lists of samples, with the operations of
  `initialize` and `advance` in their order; mappings and acceleration are arbitrary functions. Two small recursive
  functions say which samples are expected in each iteration; induction over the iterations, with the invariant that
  the writer keeps one sample and the reader shows what it received.
* C105 `Accel/TimeGrid*`: the time grid of one data with the flags that decide when it is created and moved, run over
  windows and iterations; gathering and storing of the long vector with offsets, as in the code. Specification: relative
  positions of the times of one window, and the part of the vector that belongs to a data.
* C106 `Config/Value*`: the stream operators as functions on lists of characters, with the error flags the code looks at.
  Specification: a grammar of literals as a data type with `render` and `value`; both directions.
* C107 `Config/Tag*`: the tree of tags with flags and values, changed while the tree of elements is traversed; the result
  is the list of calls of the listeners. Specification: an inductive predicate on schema, element and calls without
  state; both directions by mutual induction over the tree of elements, with an invariant on the flags.
* C108 `Config/Scheme`, `SchemeLemmas`, `SchemeProps`: the maps of data as ascending lists, filled from the exchange tags
  for each participant. The specification is the set of tags between two participants.
* C109 `Config/SchemeConfig*`, `SchemeExamples`: the tags folded into a configuration with the checks after each, then
  the end tag with constructors and further checks. The specification `WellPosed` speaks about the given tags only.
* C110 `Startup/*`, `Net/Ordered`, `Net/Never`: programs of all participants during `initialize()` and `finalize()`;
  each follows a plan of labelled conversations with growing labels, plans of partners are dual, so the smallest label
  is next at both partners. Safety part (who never finishes): invariant over programs and channels.
  Two-level initialization only as to who is sent what.
* C27, C111 `Waveform/Zeros`, `Waveform/Interpolation`, `Waveform/Reproduction`: `Zeros` proves without reference to the
  program that a spline (polynomial plus truncated powers, over the reals) that vanishes at points interlacing with its
  knots is zero, by induction over the degree (Rolle) and the number of knots. `Interpolation` proves Marsden's identity
  for the modelled basis functions, that control points and truncated powers correspond one to one, and that averaged
  knots interlace; so the collocation system has exactly one solution. `Reproduction` draws the consequences for reads.
* C112 `Dist/Repartition*`, `Api/Access*`, `Net/Lift`: `ReceivedPartition::compute` with one-level initialization as a
  program of all ranks with blocking sends; what mappings tag is an arbitrary function of the mesh they see. The parts
  of the ranks are specified by the global IDs of vertices and elements (`Restricts`). On top the API functions for direct
  access; data transfer by C60.
* C113 `Mapping/Parallel*`: what the nearest-neighbor, projection and cell mappings tag, put into the distribution of C112; the
  search on the part a rank keeps is related to the search on the whole mesh through global IDs, then C60 and the
  mapping on the rank (C43, C44, C49). The result is stated about the whole mesh and the data of the provider.
* C114 `Mapping/Solvable*` on top of `Mapping/Definite`, `Mapping/Overlap`, `Mapping/Wendland`, `Mapping/Compact` and
  `Mapping/BasisDefinite`: whether the constructor of the C95 solver succeeds for the functions of C98. The Gaussian kernel is
  positive definite by its power series, `1/(t+d²)`, `1/√` and `√` by integral representations, the compactly supported
  polynomials as positive mixtures of overlaps of bumps on balls in three dimensions (`Mixture`). The decomposition is
  exact: it succeeds iff the matrix is positive definite, or invertible for functions which are not declared positive
  definite.
* C115 `Mapping/ParallelRbf*`: what radial basis function mappings tag, put into the distribution of C112; the vertices of the
  ranks are numbered by their positions in the whole mesh, every needed vertex has one owner, then C60 and C96. Coordinates
  and the support radius are rational, the basis function is real. The copies of a conservative mapping are zero before.
* C116 `Dist/TwoLevel*`, `Net/Choreo`, `Net/BufferedBind`: programs of all ranks of both participants that compare bounding boxes and
  send the parts of the mesh; a global plan of all messages (`choreo_completes`) shows that they complete. What a rank gets,
  filtered by its box, equals the whole mesh filtered by its box, so that C112 and C59 apply. The maps follow from the
  numbering by global IDs, and data by C60/C61. A mesh is one message (C66), connection of the channels is C68.

* C117 `Export/Model`, `Names`, `Spec`, `Lemmas`, `Runs`, `Props`: a participant's exporters as functions from calls of `advance` to
  writes; the file system is a map from paths to contents, the writes of all ranks and exporters interleave freely. File names are
  lists of characters, so that it is proved when they differ.
* C118 `Export/Content*`: the numbers and names in the files, and readers for VTK XML, legacy VTK and tables; reading gives the
  mesh. The number a reader gets for a printed number is a parameter; rounding to 6 digits is bounded separately.
* C119 `Config/Participant*`: the callbacks for the tags of a participant and the end of its configuration, over any list of tags.
  `WellFormed` and `expected` are stated on the tags; by induction over the tags from the right, then over the mappings
  with an invariant for each data, `configure` returns `expected` if well-formed and an error message else.
* C120 `Mapping/Cell*`: the boxes of cells and what the tree searches guarantee about them (`Query.Boxes`), on top of the searches of
  C49; barycentric coordinates are unique, so a cell that contains the vertex is admissible once it is found.
* C121 `Log/*`: the table writer (`Writer`), the two log files and the calls that write them, inserted into the scheme programs of
  `Scheme/Base` (`advanceL`), executions with files (`LExec`). The specification (`rowsFrom`, `iterRow`, `convRow`) counts in the
  observations of the solver. Proved by induction over executions: erasing the files gives an execution of the plain scheme, the
  files are the specified rows since the last reinitialization. Not modelled: number formats, the schemes with first-participant
  time windows (`FixedHooks`), failing disks.
* C122 `Api/Actions*`: the storages of `Api/DataPath` with an action (a function of the values of a sample) performed by the loop of
  `performAction` after the write mapping at the writer and after the read mapping at the reader. By induction over all runs the
  exact contents of all messages and of everything that can be read; the specification `onceSent`/`onceRead` leaves the sample at the
  window start as it is, and coincides with the code for repeatable actions only.
* C123 `Config/Acceleration*`: the callbacks for the acceleration tags with their state, over any list of subtags. `Tag.WellFormed` and
  `Tag.expected` are stated on the tags with the documented defaults; by induction over the subtags the state is what the tags say.
  `configureAll` is the sequence of coupling schemes. Not modelled: parsing of attributes (C106, C107).
* C124 `Config/Action*`: the callbacks for action tags and `performAction` of Python actions, with the user's function as an arbitrary
  partial function with state (`none` is an exception). The arrays given to Python are the stored values, so what the function leaves
  there is the new sample. Not modelled: loading of the module (done again in every call, since `_isInitialized` stays false), source and
  target being the same data.
* C125 `Config/Connections*`: tags of communications, the checks at the end of the configuration, the connections of a participant and
  the communications of its meshes. By induction over the lists; both ends are compared by evaluating the functions for both names.
  That names of participants differ is a hypothesis, the code does not check it.
* C126 `Config/Method*`: attributes and subtags of mapping tags, basis functions, executors, the constructors of the mappings; the state
  shared by all tags (`_rbfConfig`, `_executorConfig`) is kept, so that independence is a theorem. Numbers are rationals, infinities and
  NaN. What is valid and what a tag describes is stated on the tag (`Valid`, `Describes`); both are exact. The meshes of mappings are C119.
* C127 `Mapping/PetRbf*`: the matrices as each rank assembles them (owned rows, columns through the application ordering, only what the
  rank knows within the support radius, upper triangle of a symmetric matrix), the solution of the systems, rescaling, filtering, and the
  distribution of the vectors. KSP solvers are exact (CG/GMRES: inverse, LSQR: shortest least squares solution). Proved by showing that
  the matrices are those of C95 for a numbering given by the ranks, and that C95 does not depend on the numbering (C96). Not modelled:
  preallocation, tolerances and iteration counts, initial guesses.
* C128 `Mapping/Batched*`: weights, the elimination without pivoting as a recursion on the Schur complement, the least squares solution
  on the columns which the pivoted QR keeps (`Device`, what is assumed of it is `Device.Valid`), and the threads of a team as
  interleaved reads and writes of the shared memory in `do_batched_solve`. Equality with the model of the CPU variant (C97) for
  schedules in which no thread writes before all have read; other schedules exist. Not modelled: the vertices of the clusters as
  offset arrays, rounding, several components, the batched QR itself (it has no barrier between filling the matrix and the factorization).
* C129 `Config/Dataset*`: the tags for data and meshes as a fold over the document with the state of both configurations. Which documents
  are accepted and what they describe is stated on the tags (`Valid`, `MeshMatches`); by induction over the document. The bounds meet the
  hypothesis of C76 (`C129_bounds`).
* C130 `Profiling/*`: the event registry with its queue, dictionary and file, event objects, and the calls of a participant that create
  them; the code below a call is an arbitrary forest of events. The specification reads the file with a reader that knows nothing but the
  records, and compares with what the calls tell. `Good` (the records in the file and in the queue are read as what has been told so far)
  is preserved by all steps (`C130_told_partial`, `C130_nested_partial`); a relation of single steps gives the theorems for all settings
  (`C130_times`, `C130_off`, `C130_lost`).
* C131 `Bindings/*`: every function of the two bindings as code over an arbitrary behaviour of the C++ API, with the global participant,
  pointers as memory with a size, products in `int` and `unsigned long`, and `abort` and undefined behaviour as distinct ends. The
  specification maps a call to the function of the API it stands for and states the documented sizes. Proved by evaluation of each
  function and induction over programs (`C131_c_partial`, `C131_fortran_partial`, `C131_program_partial`).
* C132 `Logging/*`: the configuration of the sinks (defaults, `log.conf`, the tag), the core of Boost.Log by its documentation with
  its default sink, filters as predicates and formats as pieces. The specification takes the wanted sinks from the documentation of
  the tags. Proved by induction over sinks and messages (`C132_records_partial`, `C132_text_partial`).
* C133 `Mpi/*`: the static state of `Parallel` and `Petsc` with the environments as a record of calls, each marked allowed or not by
  the rules of MPI and PETSc. Invariant over all programs of the application (`C133_frees_nothing`, `C133_balanced`,
  `C133_application`), exact calls of participants one after the other (`C133_sessions_partial`, `C133_alone`, `C133_accepts`).
* C134 `Remesh/*`: the four waveforms of one data set (written, mapped by the sender, received, mapped by the reader) through the
  steps of `advance` at the end of a window, with mapping or sending a sample of a wrong size as a distinct outcome. Closed form of one
  window (`step_eq`), invariant over all sequences of windows, iterations and resets (`inv_run`).
* C135 `Ports/*`: transition system of all ranks of both participants, one step per published port and per connection. Invariant
  relating the connections stored on both sides (`Inv`), progress (`progress`), measure of what is left (`left`). For a single port,
  the collective call of MPI returns when all ranks of both communicators have called it.
* C136 `Doc/*`: `printDTD` as a list of declarations, the rules of XML 1.0 for documents with a DTD as specification, compared with
  `Accepted` of C107. Proved in both directions for schemas without equal names: valid and readable documents are accepted, accepted
  documents in the order of the schema are valid. Links of the Markdown reference are compared with the anchors of headings.
  Not modelled: characters, defaults in the DTD, printed examples, `toDocumentation`.

Nothing on the list is inexpressible; whatever turns out to be provable only in
part is marked `_partial` and explained in section 5.

## 5. Disagreements between code and property, partial results

Each line is a behaviour of the modelled code that differs from what a user would expect; the theorem proves it on the
model with a concrete witness or in general. Properties whose text is contradicted are `partial` in `MANIFEST.json`, the
remaining ones name the needed precondition in their text.

Time and checkpoints
* A step that overshoots the window end within the tolerance is accepted and can leave a participant that may not step
  any more although coupling is ongoing: `C03_tolerated_overshoot_stuck`. Hitting a truncated last window within the
  tolerance does not snap the time onto its end: `C01_truncated_end_not_snapped`.
* Remainders and overshoots below the tolerance break the checkpoint rules: `C06_late_write_request` (request although
  coupling has ended), `C07_missing_write_request` (read without preceding write).
* A `strict` measure without `max-iterations` aborts in the first iteration that has not converged:
  `C11_strict_infinite_aborts`. The residual-relative measure never converges if the first residual is zero:
  `C80_residual_never_if_first_zero`.

Protocols
* Serial coupling: participants that hit window ends within the tolerance only can wait for each other:
  `C14_tolerance_deadlock`.
* Multi coupling: direct exchange between two non-controllers, accepted by the configuration, deadlocks with blocking
  sends: `C17_direct_exchange_blocks`.
* Compositional coupling: tolerated overshoots skip an explicit exchange (`C20_tolerated_overshoot_skips_exchange`),
  window sizes that are not aligned send the same window twice (`C20_misaligned_sends_twice`), different end
  conditions leave a participant that may not step (`C21_uneven_end_stuck`).
* In a chain of three participants the outer ones can disagree about a changed mesh: `C90_chain_disagrees`.

Waveforms and data
* Replacing all samples or changing samples in place keeps an outdated spline: `C30_setAll_stale`, `C30_inPlace_stale`.
* Values written before `resetMesh()` reappear at vertices that were not written afterwards: `C32_stale_after_reset`;
  values written directly to a received mesh are lost if it is reinitialised in the same step: `C32_direct_lost`.
* The gradient buffer of vector data is larger than the data, so that gathering it fails an assertion:
  `C65_gradient_buffer_too_large`, `C65_gradient_gather_fails`. Over point-to-point communication the superfluous entries do no harm
  (`C65_gradients_p2p`), nor is there a difference for scalar data (`C65_gradients_gather_scatter`).

API
* `advance()` before `initialize()` or after `finalize()` and mesh functions after `finalize()` dereference null
  pointers: `C36_advance_first`, `C36_mesh_after_finalize`, `C36_ub_reachable`. A failing `advance()` has already
  advanced the time: `C36_error_advances_time`.
* `setMeshQuads` is not atomic: `C37_quads_not_atomic`. Quads with collinear first three corners are accepted:
  `C91_collinear_corners_accepted`. The hint for data of a mesh without data reads the front of an empty list:
  `C87_no_data_undefined`.
* Direct access (C112): the documentation of `setMeshAccessRegion` says it may be left out if a mapping involves the mesh;
  in parallel all access then is an error (`C112_parallel_needs_region`). A region that is one point works in parallel but
  is taken for a missing one in serial (`C112_point_region_serial`). `mapAndReadData` ignores surplus coordinates
  (`C112_surplus_coordinates`) and, if a region is set, computes the minimum of no numbers for fewer coordinates than one
  point has (`C112_too_few_coordinates`). `getMeshVertexIDsAndCoordinates` accepts empty buffers although there are vertices
  (`C112_empty_buffers`).

Meshes and geometry
* Elements over coincident vertices are lost: `C38_coincident_vertices_lose_elements`. Two empty boxes overlap:
  `C40_default_boxes_overlap`. `lineIntersection` has a wrong sign and `computeNormal` returns zero: `C88_line_wrong`,
  `C88_normal_zero`.

Mappings
* Weights below 1e-14 are dropped, constants are off by that much: `C46_dropped`.
* Gradients (C51): the documentation of `writeGradientData` orders the numbers of vector data by direction (`x dx, y dx, x dy, y dy`).
  The nearest-neighbor-gradient mapping takes them for ordered by component (`Sample.hpp` says so too), so that it
  uses the transposed matrix of derivatives: a rotation comes out with the wrong sign (`C51_documented_order_differs`).
* Radial multiscale: only right for ascending 1D vertices: `C55_out_of_bounds`, `C55_spread_wrong`,
  `C55_collect_wrong`. Axial multiscale 1D-2D, parabolic, square has no defined result: `C56_square_2d_undefined`.
* Parallel runs (C113): a rank whose local mesh has one vertex has a bounding box without extent, which no safety factor
  enlarges; unless a vertex of the received mesh is at the same place, the participant stops with the advice to increase
  the safety factor (`C113_single_vertex_error`). A closest vertex outside the box is replaced by another one
  without notice (`C113_out_of_reach`, `C113_far`). Projections in three dimensions depend on the partition even without
  filter: vertices with weight zero are not tagged, their triangles are lost, and the search prefers farther triangles to
  the closer edge (`C113_projection_3d_partial`).
* Linear cell interpolation in two dimensions (C120): four triangles are considered, by the distance to their bounding boxes. If
  more boxes contain the vertex, the triangle around it may not be among them and the value is taken from an edge without
  notice (`C120_missed_2d`). In three dimensions all tetrahedra whose boxes contain the vertex are considered.
* RBF: fewer vertices than coefficients of a separated polynomial do not reproduce constants: `C95_single_vertex`.
  In parallel, vertices of the received mesh which no rank owns make the primary rank copy more rows than the input
  matrix has (`C96_unowned`); a gap wider than the support radius suffices (`C96_gap`), although the partitioning only
  warns about such vertices.
* PUM: a vertex within 1e-14 below the radius makes the set-up fail (`C97_edge`), a load where all basis functions of
  its clusters vanish is lost (`C97_write_lost`). Clustering: the default projection of centers leaves vertices
  uncovered (`C99_projection_gap`); `relative-overlap="0"` and one vertex per cluster are accepted but do not work
  (`C99_no_overlap`, `C99_one_per_cluster`).
* Basis functions: the Gaussian jumps by 1e-9 at its support radius (`C98_gaussian_jump`) and is accepted with support
  radius zero (`C98_zero_radius`); loads beyond the support are lost without polynomial (`C98_load_beyond`).
* Parallel radial basis functions (C115): if a vertex of the received mesh is not needed by any rank (out of the support radius, or removed
  by the geometric filter), a serial run works but the primary rank of a parallel one accesses memory out of bounds (`C115_lost`; the
  message the user gets is only a warning).
* Setting up radial basis functions (C114): the Gaussian is declared strictly positive definite, but because it is cut off at its
  support radius it is not: for every shape parameter there are three distinct vertices which are refused
  (`C98_gaussian_indefinite`, `C114_gaussian_refused`). Thin plate splines refuse two vertices at distance one
  (`C114_thin_plate_refused`), volume and thin plate splines refuse a single vertex (`C114_single`), both unless the polynomial is
  integrated; a partition of unity with these functions fails with the first cluster of one vertex (`C114_clusters_single`).
* Iterative radial basis functions (C127): values and loads below 1e-9 become zero (`C127_small_constant`, `C127_small_loads`). With compact
  support the neighbours are searched including the dead axes, so that vertices which only differ along a dead axis do not see each other
  (`C127_dead_axis`). With the default separated polynomial a consistent mapping is rescaled and neither equals the direct one nor is the
  transpose of the conservative one (`C127_rescaled`). If the input vertices lie in a plane (or on a line) no axis is dropped and
  constants are not reproduced beside it (`C127_flat`). A rank that does not know the neighbours of its vertices (the safety factor
  enlarges boxes relative to their size, not by the support radius) assembles a different matrix without notice (`C127_halo`).
* Partition of unity on a device (C128): between the reads of the polynomial coefficients and the writes of the coordinates to the same
  shared memory there is no barrier, a complete schedule of four threads maps zero to three (`C128_race`). No axis is dropped in flat
  clusters, so that constants are not reproduced (`C128_flat`). A rank with an empty mesh is an error (`C128_empty_rank`), vertices
  with equal coordinates are not, their values are not numbers (`C128_duplicate`). Conservative mappings are accepted: a debug build
  aborts, otherwise all loads are lost (`C128_conservative`).
* Coarse graining is not conservative on the discrete level and loses particles without vertices in reach:
  `C100_not_conservative`.

Distribution
* Two-level initialization (C116): a rank of the receiver whose region overlaps the bounding box of a rank of the provider, but contains
  no vertices, counts as connected; it sends no data and the provider waits for it forever with MPI (`C116_empty_rank_waits`,
  `C116_waits`; sockets do not wait for zero bytes). The geometric filter is switched off for radial basis functions, but a
  rank still only gets the parts that overlap its own box, so that it lacks vertices it has with one-level initialization
  (`C116_no_filter_differs`). If nothing overlaps, only the primary rank of the receiver reports it, everyone else goes on
  (`C116_no_overlap`).
* Two-level partitioning without filter, or with ids that are not ascending, gives a vertex two owners:
  `C59_no_filter_two_owners`, `C59_unsorted_two_owners`. A mesh without vertices fails an assertion (C57).
* Point-to-point: a rank without partner keeps uninitialised memory instead of zeros: `C62_p2p_untouched`,
  `C62_negation`. An empty connection map fails an assertion: `C67_empty_connections_rejected`. A connection file of an
  earlier run is read as if it were current: `C68_leftover`.

Acceleration
* Aitken: a factor of zero is never left (`C72_zero_factor_stays`), equal residuals divide by zero
  (`C72_undefined_iff`). A constant preconditioner accepts factor zero: `C77_zero_factor`.
* Quasi-Newton: `C73_backup_unused`, `C73_qr3_undefined`, `C73_dependent_column`, `C74_wrong_window`,
  `C75_absolute_deletes_all`, `C75_reset_mismatch`, `C76_substeps`, `C76_substeps_wrong_data`,
  `C76_scale_needs_output`.
* IMVJ: `C93_leftover` (contribution of the previous window counted twice), `C93_slide`, `C93_first_window`.
* RS-SVD: the decomposition of the last restart stays in the variables scaled with the weights of that time, but new
  factors and the result use the current weights. If the weights have changed the Jacobian is distorted
  (`C102_changed_weights`, `C102_doubled`). A first stored window without columns reads the first of no singular values
  (`C102_empty_first`).
* RS-LS: interfaces with one or two unknowns fail at every restart (`C103_small_interface`), without filter or with QR1
  so do linearly dependent differences (`C103_dependent`).
* Time grids: in a last window cut so short that a time of the grid is within the tolerance of its start, this unknown is
  left out while vectors and matrices keep their size (`C105_tiny_window`).

Data path
* In a last window that max-time cuts short, the second participant of a serial scheme stamps data without substeps with
  the end of the full window (`receiveDataForWindowEnd` adds the window size, `C104_stamp`). With linear interpolation,
  the default, it reads a wrong value at the end of the window (`C104_truncated_wrong`); with an implicit scheme the
  second iteration stores a sample before the last one, which violates an assertion (`C104_truncated_fails`).
* Values written before `initialize()` although no initial data are configured are sent with substeps. The value at
  the start of the first window then changes between two of its iterations, but only for a reader without mapping
  (`C104_unannounced_initial_data`).

Networks
* Startup (C110): the configuration accepts an `<m2n>` whose acceptor and connector are the same participant, which then waits
  for itself (`C110_self_link`). It accepts `<receive-mesh from>` a participant that does not provide the mesh; the receiver
  waits forever (`C110_not_provided`). With two-level initialization the provider uses the first link of
  the mesh instead of the current one (`ProvidedPartition.cpp:62, 71-75`), so a two-level receiver after a one-level one gets
  nothing (`C110_two_level`, `C110_two_level_wrong_receiver`). The configured acceptor is the one that requests the connection
  (`Configuration.cpp:142-148`), which is harmless.
* Networks of explicit schemes (C101): no configuration check rejects a cycle of serial schemes, which waits in
  `initialize` forever (`C101_cycle_deadlocks`); a serial and two parallel schemes between three participants complete or
  deadlock depending on their order in the configuration (`C101_mixed_deadlocks`, `C101_mixed_order_matters`), so do
  schemes with initial data (`C101_initial_deadlocks`, `C101_initial_order_matters`); two serial schemes between the
  same participants share one channel and can hand initial data of one to the other (`C101_double_mixes_data`); with
  blocking sends even an acyclic network can deadlock (`C101_blocking_sends_deadlock`).

Configuration
* Numbers: the code looks at the end-of-file flag of the stream but not at its failure flag. A blank integer attribute
  keeps the value of the previous tag of this kind, a blank decimal is an uninitialised variable (`C106_blank`), a sign
  alone or `1e` is 0, integers out of range are clamped, `1/0` is accepted (`C106_wrong`). Where the locale en_US is
  installed the comma counts as thousands separator at any place, so that `0,5` is 5 (`C106_comma`).
* Tags: a blank integer gets the value of the element before (`C107_leftover`). A namespace of which one tag is required
  would need all of them, since the flag is set at the wrong object; no schema has that (`C107_alternatives`).
* Schemes: the check against implicit schemes without measures and without a limit compares with -1, but -1 has been
  replaced by -2 before, so such a scheme is accepted and iterates forever (`C109_unlimited`, `C109_endless_accepted`).
  Strict measures without a limit are accepted and abort (`C109_strict_unlimited`). Multi coupling schemes check
  neither the connection of their participants (`C109_missing_link`) nor direct access and waveform degree
  (`C108_many_unchecked`). The last check of serial implicit schemes, that the first participant does not send
  accelerated data, cannot fail (`serialLast_ok`).
* Participants: a mapping without data is refused, but a just-in-time mapping is accepted as soon as any data is
  written (read) on any mesh (`C119_just_in_time_without_data`). Data can be written directly on a received mesh that is also
  the target of a mapping; the mapped values are dropped without notice (`C119_direct_write_and_mapping`). Mappings are
  refused as ill-defined although the data both sources have is not read where they map to (`C119_refuses_unambiguous`). A
  parallel participant refuses the multiscale mapping of a serial partner (`C119_multiscale_of_serial_partner`), and
  whether a configuration is accepted depends on who reads it (`C119_refused_by_itself_only`).
* Accelerations: a preconditioner for Aitken is in the schema, but its callback reads the attribute `update-on-threshold` that only
  the quasi-Newton schemes have, and aborts (`C123_aitken_preconditioner`). IMVJ without `imvj-restart-mode` is restarted with SVD as
  documented, but with truncation threshold 0 instead of the default 1e-4 (`C123_default_truncation`). The attribute `scaling` of data
  is only read for the quasi-Newton schemes.
* Actions: Python actions without source data, documented as optional, read the last element of an empty list
  (`C124_python_source`); without target data, documented as optional, performing them dereferences null (`C124_python_target`);
  without path, documented as the current path, they are rejected (`C124_python_path`). An empty target name is undefined
  (`C124_empty_target`). A Python module without `performAction` is only warned about before the missing function is called.
* Communications: acceptor and connector may be the same participant, which then waits for itself (`C125_self`). A mesh can be received
  from a participant that does not provide it; the receiver waits for a mesh nobody sends (`C125_orphan`). Names of participants are
  not checked to be different. Connectivity is required by mappings and actions only: a provided mesh with a watch integral or an export
  but without such a mapping drops the edges, triangles and tetrahedra the user sets (`C125_meshes`).
* Mapping methods: the alias `mapping:rbf` has attributes for dead axes and ignores them (`C126_alias_ignores_dead`), and its clusters
  have 100 vertices and overlap by 0.3 where `rbf-pum-direct` has 50 and 0.15 (`C126_alias_differs`). Of several executors the last one
  counts (`C126_last_executor`). A Gaussian of support radius 0 is accepted, other functions refuse it (`C126_zero_radius`);
  multiquadrics have any shape parameter (`C126_any_multiquadrics`). -1 vertices per cluster are 4294967295 (`C126_negative_vertices`),
  0 vertices or an overlap of 1 only fail an assertion (`C126_clusters_asserted`). The device "1 or 2" is 1 (`C126_device_text`). Coarse
  graining is accepted where it is not implemented (`C126_coarse_graining`).
* Data and meshes: bounds of vectors are only compared if both are finite; infinite bounds of the wrong sign and NaN are ignored, where
  scalars refuse them (`C129_vector_bounds`). The bound of the third component is dropped on a mesh in two dimensions
  (`C129_dropped_bound`). Meshes of the same name only fail an assertion; otherwise the second one gets vectors with the dimensions of
  the first and is never found (`C129_duplicate_mesh`).

Observation and actions
* Watch points without vertices dereference null (`C81_no_vertices_undefined`), watch integrals mix scaled and
  unscaled values (`C82_mixed`) or miss the area column (`C82_area_column_missing`), summation with fewer samples reads
  out of range (`C83_fewer_undefined`), with more ignores them (`C83_more_ignored`), area scaling divides by zero at
  isolated vertices (`C84_isolated_vertex`) and depends on the partition (`C84_partition_dependent`).
* Exports: a participant in coupling schemes with different window sizes numbers its exports by the scheme with the fewest
  windows (the comment in CompositionalCouplingScheme.cpp says the most); later states overwrite earlier ones, also the initial
  state, and the series lists one file at several times (`C117_compositional_overwrites`). Exporters for every iteration never
  complete a series (`C117_iteration_series`). Mesh "A-B" of participant "C" and mesh "A" of participant "B-C" share their files
  (`C117_names_collide`). After an iteration that is repeated, written data are exported as they were at the start of the
  window, since the samples of the iteration have been dropped before (`C117_iteration_written_data`).
* Profiling: the settings are known before the file is opened, and a flush in between loses all records: with `flush-every` from 1 to 12
  (1 to 9 without MPI) the file lacks names of ids and the beginning of `_GLOBAL` and `construction` and cannot be read (`C130_lost`,
  for all runs). `flush-every="1"` does not write records directly: a flush needs more than one record (`C130_not_direct`).
  Without a call of `initialize`, `solver.initialize` is never stopped before the file is closed (`C130_unstopped`). A participant
  constructed while another one of the process is alive drops the records of the first one and takes the id of `_GLOBAL` for
  `construction` (`C130_second`). `advance` before `initialize` dereferences a null pointer before the check that would report it
  (`C130_advance_null`).
* Bindings: `precicec_getMaxTimeStepSize`, `precicec_setMeshAccessRegion`, `precicec_getMeshVertexIDsAndCoordinates` and the two
  functions for profiling sections lack the check that a participant exists and dereference a null pointer without one
  (`C131_unchecked`). The Fortran functions that create a participant lack the check that there is none: the new one silently takes
  the place of the old one, whose destructor runs afterwards (`C131_replaced`). The sizes of arrays are computed as products of
  type `int`: 715 827 883 vertices in three dimensions are undefined although the number is an `int` and the C++ API takes them
  (`C131_overflow`). A Fortran name of blanks, or an empty one, reads the character before the string (`C131_blank`). Not modelled:
  the deprecated `precicef_set_tetrahedron` lacks the trailing underscore of the other Fortran functions.
* Logging: `<log enabled="false">` logs as if it were enabled as soon as it has an enabled sink (`C132_not_disabled`). If logging is
  enabled and all sinks are disabled there is no sink, and the default sink of Boost prints the messages of all severities and ranks
  (`C132_all_disabled`); only `<log enabled="false">` adds the sink that prevents it. The default formatter writes `WARNING: ]`, which
  is not in the default format (`C132_warning`). The rank of the messages is that of MPI: in builds without MPI every rank of a
  parallel participant logs as rank 0 and all infos appear (`C132_rank`). The output of a stream is not checked: a name other than
  `stdout` and `stderr` ends in an assertion or a null pointer (`C132_stream`).
* MPI: a constructor or a check that throws after it has initialized MPI leaves it initialized for good, nothing the application calls
  makes preCICE finalize it (`C133_failed`, `C133_check_failed`). A communicator given to a constructor that throws is the one of the
  next participant that is given none (`C133_stale`). After a participant that managed MPI, a further one aborts in builds with
  assertions and uses MPI after its end in all others (`C133_again`); after a successful check, all builds do (`C133_after_check`).
  With two participants at a time MPI managed by preCICE is never finalized (`C133_two`), and the first one goes on with the
  communicator of the second (`C133_two_comm`). That preCICE has started PETSc is never forgotten: PETSc started by the application
  after that is stopped by the next participant (`C133_petsc`). A check in a process with MPI leaves PETSc running
  (`C133_petsc_left`).
* C134: `CouplingData::reinitialize` of implicit schemes sets all samples of all coupling data to zero, also of meshes that have not
  been reset and also those of time steps done in the current window. If the reader resets its mesh in an iteration that does not
  converge and substeps are exchanged, it reads zeros for the start of the window and all time steps before its end (`C134_zero`,
  `C134_zero_start`). Without substeps the sample at the start of the window is cleared and never sent again, so that the
  reader gets the value of the end of the window at all times of the next iteration (`C134_lost`).
* C135: with `m2n:mpi`, ranks without a common vertex with the other participant return before the collective `MPI_Comm_accept` or
  `MPI_Comm_connect` on the communicator of the participant. If there is such a rank, all others hang (`C135_single_hangs`), for
  example if a mesh of a parallel participant lives on some of its ranks only.
* C136: the printed DTD prescribes the order of elements (`C136_dtd_order`), preCICE accepts any order
  (`C136_dtd_rejects_accepted`). A tag name that occurs in several places is declared several times, which XML forbids
  (`C136_dtd_twice`, `C136_dtd_participant`: `participant` of the configuration and of multi coupling schemes). In the Markdown
  reference the counter of equal headings is multiplied by one instead of incremented: nothing links to the third heading of a name or
  later ones (`C136_links_third`). For some schemas the first two links are swapped (`C136_links_swapped`); the schema of preCICE was
  not modelled completely, so whether this happens in the shipped reference is not settled.
* Log files: when a mesh is reset, all participants that are reinitialized open their log files anew and lose all rows of the
  simulation so far (`C121_remeshing_deletes`). The entry `Convergence` is computed from the iteration limits only: a window whose
  measures are satisfied in the last allowed iteration is logged with 0 (`C121_flag_at_max`).
* C122: actions change all stored samples, but mapping and receiving only renew the samples after the window start. The sample kept at the
  window start is changed again in every iteration and in the next window: with a read mapping, a `multiply-by-area` action with area 10 and a
  parallel-implicit scheme, the value 210 read at the start of the window becomes 2100 and 21000 in the next iterations
  (`C122_read_wrong`), so every linear interpolation inside the window is wrong. The second participant of a serial-explicit scheme sees it
  without iterating (`C122_second_wrong`), and with substeps the partner of a writer with an action gets the wrong value
  (`C122_sent_wrong`).
* Contents of exports: VTP leaves out tetrahedra (`C118_vtp_drops_tetrahedra`), legacy VTK triangles in two dimensions
  (`C118_vtk_drops_triangles`). All formats but legacy VTK print 6 digits only: close vertices of a large mesh coincide
  (`C118_digits_merge`). Columns of CSV files and arrays can have equal names (`C118_csv_ambiguous`, `C118_names_ambiguous`).

### Partial results that are not disagreements

* C93: RS-SVD and RS-LS are an arbitrary replacement of the stored factors (see C102 and C103 for what it is).

### Mutation tests

`seeded/LOG.jsonl` records the edits of the model that were tried, 777 entries so far; edits that were
tried again after something was added are counted again. "failed" lists the declarations at which Lean
stops first; theorems that depend on them are then not elaborated. "caught" therefore means only that the project no longer builds:

* 189 of the 768 caught edits break a theorem of the manifest (named `Cxx_...`) directly; 88 more break an `example` but no such theorem.
* The other 491 stop at a lemma (or another definition). This shows that the proof no longer goes through, not that the theorem is false for the edited
  model: a lemma may describe more of the model than the theorem needs, or its script may be brittle. 24 of the caught edits were
  judged to break no claim, some of them only after the run. For these edits the log is weak evidence that the theorem would notice the bug. To a
  lesser degree this holds for the first group too, a failing proof does not refute a statement.
* Entries with a "mode" come from a run that elaborates all files of a directory together and lists every failing declaration; there,
  failing examples show that the edit changes the behaviour on a concrete case.
* 5 entries are survivors: they are judged harmless in their entry, except "infos marked as warnings" (C132), for which the judgement
  was wrong; `C132_severity` was added and the edit is logged again. 4 more have their own remark (survived first, then a theorem was added, or
  equivalent).

The edits were chosen by the author of the model, and not all modules have been tested equally: specifications of further edits were
prepared for several of the later modules and not run for lack of time.

## 6. Axiom audit

`AXIOMS.md` lists the result of `#print axioms` for every theorem of the manifest (generated from the compiled project).
Only `propext`, `Classical.choice` and `Quot.sound` occur; a few theorems need no axiom at all. `Classical.choice` enters
through Mathlib (real numbers, `omega`, `linarith`, `by_cases` on undecided propositions). `decide +kernel` is used for
concrete counterexamples; it is evaluated by the kernel and adds no axiom. The project contains no `axiom`, `sorry`,
`admit`, `native_decide` or `bv_decide`.
