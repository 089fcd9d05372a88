{"id": "C01", "title": "Window end is hit exactly for every subdivision", "statement": "However a solver subdivides a time window into advance(dt) calls, the start of every window is exactly the number of completed windows times the window size: no drift depending on the subdivision accumulates. If the last step of a window uses the remaining getMaxTimeStepSize(), the participant's time after the window is completed is exactly the window start plus the window size, or the configured max-time for a truncated last window.", "quantifier": "all fixed window sizes above the tolerance, all max-times, all finite sequences of accepted step sizes, any number of windows", "why_tests_cant": "the set of step-size sequences is infinite and rounding/tolerance effects only show for particular ones", "anchors": ["src/cplscheme/impl/TimeHandler.cpp: completeTimeWindow, progressBy, reachedEndOfWindow", "src/cplscheme/BaseCouplingScheme.cpp: addComputedTime, secondExchange"]}
{"id": "C02", "title": "Accepted steps never overshoot", "statement": "advance(dt) is accepted only if dt is positive and at most getMaxTimeStepSize() (up to the 1e-14 tolerance); after an accepted step the time exceeds neither the end of the current window nor max-time by more than that tolerance. Larger steps are rejected with an error.", "quantifier": "all reachable states and all dt", "why_tests_cant": "needs every reachable time state and every dt, including those next to the tolerance", "anchors": ["src/cplscheme/BaseCouplingScheme.cpp: addComputedTime 453-479, getNextTimeStepMaxSize 535-546", "src/cplscheme/impl/TimeHandler.cpp: untilWindowEnd, untilEnd"]}
{"id": "C03", "title": "No livelock at zero step size", "statement": "While isCouplingOngoing() is true at an API call boundary and no step has exceeded getMaxTimeStepSize(), getMaxTimeStepSize() is strictly larger than the numerical tolerance, so a solver that always steps by getMaxTimeStepSize() makes progress.", "quantifier": "all configurations with window size and max-time above the tolerance, all histories of accepted steps", "why_tests_cant": "a counterexample would be one specific history of rounding-sized remainders", "anchors": ["src/cplscheme/BaseCouplingScheme.cpp: getNextTimeStepMaxSize, isCouplingOngoing", "src/cplscheme/impl/TimeHandler.cpp: untilWindowEnd"]}
{"id": "C04", "title": "Coupling ends exactly at the configured end", "statement": "isCouplingOngoing() turns false exactly when max-time-windows windows have been completed or max-time has been reached, whichever is first; it never turns false inside a window and never true again.", "quantifier": "all configurations, all histories of advance calls (also with repeated implicit iterations)", "why_tests_cant": "quantifies over unboundedly long histories", "anchors": ["src/cplscheme/BaseCouplingScheme.cpp: isCouplingOngoing 548-552, secondExchange 364-422", "src/cplscheme/impl/TimeHandler.cpp: reachedEnd"]}
{"id": "C05", "title": "Time is monotone except for checkpoint restore", "statement": "From one advance() to the next the participant's time either increases by the given step or, if and only if reading a checkpoint is required, returns to the start of the current window.", "quantifier": "all reachable states and steps", "why_tests_cant": "needs all interleavings of subcycling and (non-)convergence", "anchors": ["src/cplscheme/BaseCouplingScheme.cpp: firstExchange, secondExchange, addComputedTime", "src/cplscheme/impl/TimeHandler.cpp: resetProgress"]}
{"id": "C06", "title": "Checkpoint requests come in the right order", "statement": "In implicit coupling, initialize() requires writing a checkpoint; every advance() that ends an iteration requires exactly one of: reading a checkpoint (window not converged), writing a checkpoint (window converged, coupling ongoing), or none (coupling finished). advance() calls inside a window require neither. Explicit coupling never requires checkpoints. (For solvers whose last step of a window is the remaining getMaxTimeStepSize().)", "quantifier": "all executions, all convergence outcomes, all subcycling patterns", "why_tests_cant": "the sequence of convergence outcomes and steps is unbounded", "anchors": ["src/cplscheme/BaseCouplingScheme.cpp: initialize 275-307, firstExchange 341-357, secondExchange 364-422", "src/precice/impl/ParticipantImpl.cpp: requiresWritingCheckpoint, requiresReadingCheckpoint"]}
{"id": "C07", "title": "Reading a checkpoint restores the time of writing it", "statement": "Whenever reading a checkpoint is required, the participant's time equals the time at which the most recent write-checkpoint request was raised, and the window counter equals its value at that moment, provided that no step has exceeded getMaxTimeStepSize().", "quantifier": "all executions", "why_tests_cant": "needs all histories of iterations across windows", "anchors": ["src/cplscheme/BaseCouplingScheme.cpp: secondExchange 364-422", "src/cplscheme/impl/TimeHandler.cpp: resetProgress"]}
{"id": "C08", "title": "Ignored checkpoint requests are errors", "statement": "If a solver does not query a raised write- or read-checkpoint request (or required initial data) before the next advance()/initialize(), that call fails with an error; if it did query all of them the call does not fail for this reason. A raised request stays reported until the next advance() and is cleared by it.", "quantifier": "all action states and all API call orders", "why_tests_cant": "all subsets of requested and fulfilled actions over unbounded histories", "anchors": ["src/cplscheme/BaseCouplingScheme.cpp: checkCompletenessRequiredActions 621-635, actions 559-582", "src/precice/impl/ParticipantImpl.cpp: requires* 687-718"]}
{"id": "C09", "title": "Iterations per window are bounded by max-iterations", "statement": "In implicit coupling with max-iterations N no window is iterated more than N times: after the N-th iteration of a window that window is complete.", "quantifier": "all N, all convergence-measure outcomes, all windows", "why_tests_cant": "convergence outcomes are arbitrary, windows unbounded", "anchors": ["src/cplscheme/BaseCouplingScheme.cpp: doImplicitStep 843-865, secondExchange"]}
{"id": "C10", "title": "min-iterations is respected", "statement": "A window is never reported complete before min-iterations iterations, whatever the convergence measures say.", "quantifier": "all min <= max, all measure outcomes", "why_tests_cant": "arbitrary measure outcome sequences", "anchors": ["src/cplscheme/BaseCouplingScheme.cpp: measureConvergence 690-749"]}
{"id": "C11", "title": "Convergence verdict follows the configured measures", "statement": "Between min- and max-iterations a window is complete iff all measures hold, or one measure marked `suffices` holds and no strict measure fails; with no measures it never converges early; a strict measure that still fails at max-iterations aborts the simulation.", "quantifier": "all lists of measures, all flags, all residuals", "why_tests_cant": "2^(3n) combinations of flags for n measures, n unbounded", "anchors": ["src/cplscheme/BaseCouplingScheme.cpp: measureConvergence 690-749"]}
{"id": "C12", "title": "isTimeWindowComplete matches window completion", "statement": "isTimeWindowComplete() is true after advance() iff that advance() ended a window for good: in explicit coupling iff the end of the window was reached, in implicit coupling iff in addition the iteration converged.", "quantifier": "all executions", "why_tests_cant": "unbounded histories", "anchors": ["src/cplscheme/BaseCouplingScheme.cpp: secondExchange 364-422, isTimeWindowComplete"]}
{"id": "C13", "title": "Window counter counts completed windows", "statement": "The window counter is one plus the number of completed windows at every API boundary; repeated iterations do not change it.", "quantifier": "all executions", "why_tests_cant": "the counter is temporarily incremented and decremented again inside advance(), only an invariant over all executions shows it balances", "anchors": ["src/cplscheme/BaseCouplingScheme.cpp: firstExchange 341-357, secondExchange 364-422"]}
{"id": "C14", "title": "Serial-explicit coupling cannot deadlock or mismatch messages", "statement": "Two participants in a serial-explicit scheme, each subcycling as it likes and ending each window with the remaining getMaxTimeStepSize(), exchange a dual sequence of messages: every receive is matched by a send of the same kind from the partner, messages are consumed in order, neither participant blocks forever, and both finish.", "quantifier": "all step sequences on both sides, all interleavings, any number of windows, with or without initial data, both window-size methods", "why_tests_cant": "schedules and subcycling patterns are unbounded", "anchors": ["src/cplscheme/SerialCouplingScheme.cpp: exchangeInitialData 91-119, exchangeFirstData 121-152, exchangeSecondData 154-209", "src/cplscheme/BaseCouplingScheme.cpp: firstExchange, secondExchange"]}
{"id": "C15", "title": "Serial-implicit coupling cannot deadlock or mismatch messages", "statement": "As for serial-explicit, additionally for every sequence of convergence verdicts computed by the second participant.", "quantifier": "all step sequences, interleavings and convergence verdict sequences", "why_tests_cant": "schedules x verdict sequences are unbounded", "anchors": ["src/cplscheme/SerialCouplingScheme.cpp: exchangeSecondData 154-209", "src/cplscheme/BaseCouplingScheme.cpp: sendConvergence, receiveConvergence 867-881"]}
{"id": "C16", "title": "Parallel coupling cannot deadlock or mismatch messages", "statement": "Two participants in a parallel-explicit or parallel-implicit scheme, each ending its windows with the remaining getMaxTimeStepSize(), exchange dual message sequences and both terminate, for every subcycling on both sides.", "quantifier": "all step sequences, interleavings, verdicts", "why_tests_cant": "schedules are unbounded", "anchors": ["src/cplscheme/ParallelCouplingScheme.cpp: 35-112"]}
{"id": "C17", "title": "Multi coupling cannot deadlock or mismatch messages", "statement": "A controller and any number of other participants in a fully implicit multi-coupling scheme exchange dual message sequences on every channel and all terminate, with buffered sends for all topologies and with blocking sends if the other participants exchange data with the controller only.", "quantifier": "any number of participants, all interleavings, all verdict sequences", "why_tests_cant": "number of participants and schedules unbounded", "anchors": ["src/cplscheme/MultiCouplingScheme.cpp: 80-174"]}
{"id": "C18", "title": "All participants agree on convergence", "statement": "In an implicit scheme the participant that measures convergence and its partner(s) see the same verdict in every iteration; hence they have completed the same number of windows and performed the same number of iterations whenever both have returned from the same exchange.", "quantifier": "all executions", "why_tests_cant": "interleavings and verdict sequences", "anchors": ["src/cplscheme/SerialCouplingScheme.cpp", "src/cplscheme/ParallelCouplingScheme.cpp", "src/cplscheme/BaseCouplingScheme.cpp: sendConvergence, receiveConvergence"]}
{"id": "C19", "title": "First-participant method: the second participant follows the first", "statement": "With the first-participant time-window-size method the window the second participant computes has exactly the size of the step the first participant made, and both participants' times agree at every window end.", "quantifier": "all step sequences of the first participant, all subdivisions by the second", "why_tests_cant": "arbitrary step sizes", "anchors": ["src/cplscheme/SerialCouplingScheme.cpp: sendTimeWindowSize 61-70, receiveAndSetTimeWindowSize 72-89", "src/cplscheme/BaseCouplingScheme.cpp: addComputedTime"]}
{"id": "C20", "title": "Compositional schemes: explicit partners exchange once per window", "statement": "If a participant combines explicit schemes with one implicit scheme of the same window size and ends each window with the remaining getMaxTimeStepSize(), every explicit scheme exchanges data exactly once per completed window, namely when the implicit scheme has converged, and is not advanced during repeated iterations.", "quantifier": "all verdict sequences, all step sequences, any number of explicit schemes", "why_tests_cant": "unbounded iteration histories", "anchors": ["src/cplscheme/CompositionalCouplingScheme.cpp: 104-230, updateActiveSchemes 438-462"]}
{"id": "C21", "title": "Compositional schemes never let a member overshoot", "statement": "getMaxTimeStepSize() of a composition is at most what every active member scheme allows, an accepted step fits all of them, and with common window size and end conditions all members have the same time; coupling is ongoing iff some member is ongoing.", "quantifier": "all lists of member schemes and states", "why_tests_cant": "arbitrary many members", "anchors": ["src/cplscheme/CompositionalCouplingScheme.cpp: getNextTimeStepMaxSize 333-357, isCouplingOngoing 359-368, getTime 279-289"]}
{"id": "C22", "title": "Data is delivered for the right window", "statement": "In explicit and implicit coupling, the data a participant reads at the end of a window is what its partner wrote last for that window (in the converged iteration), never data of another window or an abandoned iteration.", "quantifier": "all executions", "why_tests_cant": "histories with repeated iterations are unbounded", "anchors": ["src/cplscheme/BaseCouplingScheme.cpp: sendData, receiveData", "src/cplscheme/CouplingData.cpp", "src/precice/impl/ParticipantImpl.cpp: handleDataBeforeAdvance, handleDataAfterAdvance"]}
{"id": "C23", "title": "Stored samples stay sorted with distinct times", "statement": "After every sequence of writes, trims and window moves the samples stored for a data set have strictly increasing times separated by more than the tolerance, and writing at an already stored time replaces that sample only.", "quantifier": "all operation sequences that respect the documented preconditions", "why_tests_cant": "unbounded operation sequences", "anchors": ["src/time/Waveform.cpp: setSampleAtTime 29-52, trimBefore, trimAfter, move"]}
{"id": "C24", "title": "Reading at a stored time returns the stored sample", "statement": "readData at a time at which a sample is stored returns exactly that sample, for every waveform degree.", "quantifier": "all stores, degrees and stored times", "why_tests_cant": "all degrees and sample counts", "anchors": ["src/time/Waveform.cpp: sample 200-228, getSampleAtOrAfter 157-167"]}
{"id": "C25", "title": "Degree-0 waveforms hold the next sample", "statement": "With waveform degree 0 a read strictly inside a step returns the sample at the end of that step, with a single sample it returns this sample for every time.", "quantifier": "all stores and times inside the stored interval", "why_tests_cant": "all times and stores", "anchors": ["src/time/Waveform.cpp: getSampleAtOrAfter 157-167, sample 200-228"]}
{"id": "C26", "title": "Degree-1 waveforms interpolate linearly", "statement": "With waveform degree 1 a read between two stored times returns the linear interpolation of the two neighbouring samples.", "quantifier": "all stores with at least two samples, all times", "why_tests_cant": "real-valued times, arbitrary sample counts", "anchors": ["src/math/Bspline.cpp: 15-77", "src/time/Waveform.cpp: sample 200-228"]}
{"id": "C27", "title": "Constant-in-time data is read back unchanged for every degree", "statement": "If all samples of a window carry the same value, a read at any time of the window returns that value, whatever the waveform degree and the time grid. (Samples that were changed in place after a read are the subject of C30.)", "quantifier": "all degrees, grids and times", "why_tests_cant": "infinite family of grids and degrees", "anchors": ["src/math/Bspline.cpp: 15-77"]}
{"id": "C28", "title": "Values are continuous across windows", "statement": "After a window is completed, the value read at the beginning of the new window is the value that was read at the end of the completed one.", "quantifier": "all stores", "why_tests_cant": "all histories", "anchors": ["src/time/Waveform.cpp: move 95-105", "src/cplscheme/CouplingData.cpp: moveToNextWindow 232-240", "src/precice/impl/ParticipantImpl.cpp: handleDataAfterAdvance"]}
{"id": "C29", "title": "Repeating an iteration keeps the start of the window", "statement": "When an iteration is repeated, received data at the start of the window is unchanged and no sample of the abandoned iteration after the window start can be read as written data.", "quantifier": "all stores and iteration histories", "why_tests_cant": "unbounded histories", "anchors": ["src/precice/impl/ParticipantImpl.cpp: handleDataAfterAdvance 496-543, trimOldDataBefore 570-578, trimSendDataAfter 580-585", "src/time/Waveform.cpp: trimAfter 148-155"]}
{"id": "C30", "title": "Reads never use an interpolant of old samples", "statement": "After the samples of a data set change in any way, subsequent reads are computed from the new samples only.", "quantifier": "all interleavings of reads and modifications", "why_tests_cant": "the interpolant is cached, only particular interleavings expose staleness", "anchors": ["src/time/Waveform.cpp: sample 200-228, setAllSamples 54-59, operator= 19-27"]}
{"id": "C31", "title": "Relative read times outside the window are rejected", "statement": "readData/mapAndReadData with a relative time that is negative or larger than getMaxTimeStepSize() (beyond tolerance) fails; inside the interval it succeeds once data is available.", "quantifier": "all states and times", "why_tests_cant": "real-valued times", "anchors": ["src/precice/impl/ParticipantImpl.cpp: readData 1206-1255, mapAndReadData 1257-1323"]}
{"id": "C32", "title": "Last write wins and unwritten vertices are zero", "statement": "The data sent for a step consists of the last value written by writeData for each vertex since the last advance(); vertices never written in that step carry zero; the order of vertex ids inside a call is irrelevant except for duplicates, where the last wins.", "quantifier": "all sequences of writeData calls with arbitrary id lists", "why_tests_cant": "all id lists and call sequences", "anchors": ["src/precice/impl/WriteDataContext.cpp: writeValuesIntoDataBuffer 59-71, resetBufferedData 14-19, resizeBufferTo 89-124", "src/precice/impl/ParticipantImpl.cpp: writeData 1169-1204, resetWrittenData 1764-1771"]}
{"id": "C33", "title": "Write then read on the same vertex ids is the identity without mapping", "statement": "Reading back the buffer through the same list of distinct vertex ids returns the values written through that list, in order.", "quantifier": "all id lists without duplicates, all dimensions", "why_tests_cant": "all id permutations", "anchors": ["src/precice/impl/WriteDataContext.cpp: 59-71", "src/precice/impl/ReadDataContext.cpp: readValues 33-41"]}
{"id": "C34", "title": "Vertex ids are consecutive and coordinates are kept", "statement": "setMeshVertex/setMeshVertices return ids n, n+1, ... where n is the number of vertices defined so far; setMeshVertices is equivalent to repeated setMeshVertex; getMeshVertexSize counts them and the coordinates stored for an id are those passed in.", "quantifier": "all sequences of calls", "why_tests_cant": "all call sequences", "anchors": ["src/mesh/Mesh.cpp: createVertex 104-110", "src/precice/impl/ParticipantImpl.cpp: setMeshVertex 792-814, setMeshVertices 816-847"]}
{"id": "C35", "title": "Meshes are locked after initialization", "statement": "Between initialize() and finalize() every attempt to define vertices or connectivity on a provided mesh fails and leaves the mesh unchanged, unless that very mesh was reset by resetMesh() in the current window; resetMesh() unlocks only this mesh and advance() locks it again.", "quantifier": "all API call sequences", "why_tests_cant": "all call sequences", "anchors": ["src/utils/MultiLock.hpp", "src/precice/impl/ParticipantImpl.cpp: resetMesh 775-790, initialize 248-300, advance 392-466", "src/precice/impl/ValidationMacros.hpp: 18-68"]}
{"id": "C36", "title": "API call order is enforced", "statement": "initialize() succeeds at most once, advance() is accepted only between initialize() and the end of coupling, finalize() at most once, and after finalize() no call succeeds; wrong orders produce an error and never undefined behaviour.", "quantifier": "all sequences of API calls", "why_tests_cant": "all call sequences", "anchors": ["src/precice/impl/ParticipantImpl.cpp: initialize 248-300, advance 392-466, finalize 587-637"]}
{"id": "C37", "title": "Invalid vertex ids are rejected before any effect", "statement": "A call that passes an unknown vertex id (connectivity, writeData, readData) fails and leaves mesh, buffers and data unchanged; the only exception are connectivity calls on a mesh for which no connectivity is required, which are ignored.", "quantifier": "all id lists", "why_tests_cant": "all id lists including ids at the boundary", "anchors": ["src/precice/impl/ParticipantImpl.cpp: setMeshEdge* 849-905, writeData 1169-1204", "src/mesh/Mesh.cpp: isValidVertexID 252-255"]}
{"id": "C38", "title": "Connectivity is completed and deduplicated", "statement": "After initialize() every edge of every triangle and every face of every tetrahedron is present, no edge, triangle or tetrahedron occurs twice (as a vertex set), no element is added that is not a face of a given one, and no given element is lost as long as no two vertices of the mesh coincide.", "quantifier": "all meshes", "why_tests_cant": "all meshes", "anchors": ["src/mesh/Mesh.cpp: preprocess, removeDuplicates 426-450, generateImplictPrimitives 477-540"]}
{"id": "C39", "title": "Bounding boxes contain the mesh", "statement": "The bounding box computed for a mesh contains every vertex of it, expanding it never loses a point, and membership is the closed component-wise test.", "quantifier": "all meshes, boxes and points", "why_tests_cant": "real-valued coordinates", "anchors": ["src/mesh/BoundingBox.cpp: contains 70-81, expandBy 137-160", "src/mesh/Mesh.cpp: computeBoundingBox 266-278"]}
{"id": "C40", "title": "Overlap test is exact", "statement": "Two non-empty bounding boxes are reported as overlapping iff they have a common point; the test is symmetric.", "quantifier": "all pairs of boxes", "why_tests_cant": "real-valued coordinates", "anchors": ["src/mesh/BoundingBox.cpp: overlapping 172-181"]}
{"id": "C41", "title": "Filtering keeps exactly the selected sub-mesh", "statement": "Filtering a mesh with a vertex predicate keeps exactly the selected vertices (coordinates, global ids, owner flags) in order and exactly those edges, triangles and tetrahedra all of whose vertices are selected.", "quantifier": "all meshes and predicates", "why_tests_cant": "all meshes and predicates", "anchors": ["src/mesh/Filter.hpp: filterMesh 15-69"]}
{"id": "C42", "title": "Merging received partial meshes preserves connectivity", "statement": "Adding a mesh to another one appends its vertices and its connectivity with indices shifted consistently, and keeps the previous content untouched.", "quantifier": "all pairs of meshes", "why_tests_cant": "all meshes", "anchors": ["src/mesh/Mesh.cpp: addMesh 354-408"]}
{"id": "C43", "title": "Nearest-neighbor picks a nearest vertex and reproduces constants", "statement": "A consistent nearest-neighbor mapping assigns each output vertex the value of an input vertex at minimal distance; in particular constant data is reproduced and no value outside the range of the input values is created.", "quantifier": "all meshes, all data", "why_tests_cant": "all meshes and data", "anchors": ["src/mapping/NearestNeighborBaseMapping.cpp: computeMapping 30-84", "src/mapping/NearestNeighborMapping.cpp: mapConsistent 70-86"]}
{"id": "C44", "title": "Conservative nearest-neighbor preserves the sum", "statement": "A conservative nearest-neighbor mapping preserves the sum of the data (per component) over all vertices.", "quantifier": "all meshes, all data, all dimensions", "why_tests_cant": "all meshes and data", "anchors": ["src/mapping/NearestNeighborMapping.cpp: mapConservative 50-68"]}
{"id": "C45", "title": "Conservative and consistent mappings are adjoint", "statement": "Mapping conservatively from A to B is the transpose of mapping consistently from B to A: total virtual work is preserved for nearest-neighbor and for all projection/cell based mappings.", "quantifier": "all meshes and data", "why_tests_cant": "all meshes and data", "anchors": ["src/mapping/NearestNeighborMapping.cpp", "src/mapping/BarycentricBaseMapping.cpp: mapConservative 75-101, mapConsistent 103-129"]}
{"id": "C46", "title": "Projection weights sum to one", "statement": "The weights computed for a vertex, edge, triangle or tetrahedron always sum to exactly one. Weights within 1e-14 of zero are then dropped, so constants are reproduced by consistent and totals by conservative mappings up to at most 1e-14 per corner, and exactly if nothing is dropped.", "quantifier": "all points and all non-degenerate elements in 2D and 3D", "why_tests_cant": "real-valued coordinates", "anchors": ["src/math/barycenter.cpp: 11-145", "src/mapping/Polation.cpp: 9-80"]}
{"id": "C47", "title": "Projection is exact for linear functions", "statement": "For a point in the plane/line/space of a non-degenerate element the barycentric weights reproduce the point itself; hence every affine data field is mapped exactly. For points off the element the weights reproduce the orthogonal projection.", "quantifier": "all points and non-degenerate edges (2D/3D), triangles (2D/3D), tetrahedra", "why_tests_cant": "real-valued coordinates", "anchors": ["src/math/barycenter.cpp: 11-145"]}
{"id": "C48", "title": "Interpolation never leaves the range of the data", "statement": "If a projection is accepted as interpolation, the mapped value lies between the minimum and maximum of the values at the element's vertices (up to the 1e-14 tolerance on the weights).", "quantifier": "all accepted projections, all data", "why_tests_cant": "real-valued data", "anchors": ["src/mapping/Polation.cpp: isInterpolation 92-95", "src/mapping/BarycentricBaseMapping.cpp: 39-54"]}
{"id": "C49", "title": "Projection search prefers the closest admissible element", "statement": "Nearest-projection never returns a match that is farther away than the nearest vertex, and among the admissible candidates of the chosen kind it returns one of minimal distance; in two dimensions the match is at least as close as every point of every edge.", "quantifier": "all candidate sets", "why_tests_cant": "all candidate sets", "anchors": ["src/query/Index.cpp: findVertexProjection 314-318, findEdgeProjection 320-342, findTriangleProjection 344-367, findCellOrProjection 286-312"]}
{"id": "C50", "title": "Scaled-consistent mapping preserves integrals", "statement": "After a scaled-consistent mapping the integral of the output equals the integral of the input per component, unless the unscaled output integral is zero, in which case values are left unscaled.", "quantifier": "all data, all meshes", "why_tests_cant": "real-valued data", "anchors": ["src/mapping/Mapping.cpp: scaleConsistentMapping 175-246"]}
{"id": "C51", "title": "Nearest-neighbor-gradient is exact for linear fields", "statement": "If a participant writes the true gradients of an affine field in the documented order (for 2D vector data: x dx, y dx, x dy, y dy), a nearest-neighbor-gradient mapping reproduces that field at all output vertices, in every dimension and for scalar and vector data.", "quantifier": "all affine fields, all meshes", "why_tests_cant": "all meshes and fields", "anchors": ["src/mapping/NearestNeighborGradientMapping.cpp: 34-87", "src/precice/impl/WriteDataContext.cpp: 73-124", "src/precice/Participant.hpp: 1130-1146"]}
{"id": "C52", "title": "Data mapping is linear and zero-preserving", "statement": "All consistent and conservative nearest-neighbor and projection mappings are linear in the data; hence skipping the mapping of zero data and filling zeros is observationally equivalent to mapping it.", "quantifier": "all data", "why_tests_cant": "all data", "anchors": ["src/precice/impl/DataContext.cpp: mapData 110-174", "src/mapping/NearestNeighborMapping.cpp", "src/mapping/BarycentricBaseMapping.cpp"]}
{"id": "C53", "title": "Every time sample is mapped exactly once", "statement": "Mapping a data set maps exactly those samples that are later than the given time and not yet present in the target, keeps the target samples already present, and the target afterwards has a sample at each source time that was to be mapped.", "quantifier": "all stores, all cut-off times", "why_tests_cant": "all stores", "anchors": ["src/precice/impl/DataContext.cpp: mapData 110-174"]}
{"id": "C54", "title": "Just-in-time mapping agrees with the regular mapping", "statement": "mapAndReadData at coordinates x returns what a regular consistent nearest-neighbor mapping would deliver to a vertex at x, and writeAndMapData distributes values as the regular conservative mapping would; repeated calls with the same time use the same data.", "quantifier": "all coordinates and data", "why_tests_cant": "real-valued coordinates", "anchors": ["src/mapping/NearestNeighborMapping.cpp: mapConsistentAt 29-39, mapConservativeAt 41-48", "src/precice/impl/ReadDataContext.cpp: mapAndReadValues 43-61"]}
{"id": "C55", "title": "Radial geometric multiscale mapping uses the nearest axis vertex", "statement": "The radial geometric multiscale mapping assigns each 3D vertex to the 1D vertex nearest along the axis, irrespective of the order in which the 1D vertices were defined; collecting averages the assigned values.", "quantifier": "all vertex orders and coordinates", "why_tests_cant": "only unsorted vertex orders expose the failure", "anchors": ["src/mapping/RadialGeoMultiscaleMapping.cpp: computeMapping 21-123, mapConsistent 140-187"]}
{"id": "C56", "title": "Axial geometric multiscale mapping reproduces the mean", "statement": "Collecting to a 1D vertex yields the arithmetic mean of the 3D values (constants are reproduced); spreading uniformly and collecting again is the identity; the parabolic circular profile vanishes at the wall and has its maximum, twice the 1D value, at the centre.", "quantifier": "all data and meshes", "why_tests_cant": "all data", "anchors": ["src/mapping/AxialGeoMultiscaleMapping.cpp"]}
{"id": "C57", "title": "Global vertex ids are unique and contiguous", "statement": "After a mesh with at least one vertex of a parallel participant is partitioned every vertex has a global id, ids are unique over all ranks, are exactly 0..N-1, increase with the rank, and the vertex offsets are the prefix sums of the ranks' vertex counts.", "quantifier": "all numbers of ranks and vertex counts, including empty ranks", "why_tests_cant": "all distributions", "anchors": ["src/partition/ProvidedPartition.cpp: prepare 117-230"]}
{"id": "C58", "title": "Every used vertex of a received mesh has exactly one owner (gather-scatter)", "statement": "With the one-level initialization every vertex that at least one rank needs is owned by exactly one rank, and that rank needs it; other vertices are owned by nobody.", "quantifier": "all numbers of ranks, all tag patterns", "why_tests_cant": "all distributions", "anchors": ["src/partition/ReceivedPartition.cpp: createOwnerInformation 750-897"]}
{"id": "C59", "title": "Every used vertex of a received mesh has exactly one owner (two-level)", "statement": "With the two-level initialization every vertex needed by at least one rank is owned by exactly one rank that needs it.", "quantifier": "all numbers of ranks, all tag patterns, all bounding boxes", "why_tests_cant": "all distributions", "anchors": ["src/partition/ReceivedPartition.cpp: createOwnerInformation 553-749"]}
{"id": "C60", "title": "Gather-scatter delivers the right values", "statement": "With gather-scatter communication a rank receives, for each of its vertices, the sum over all sending ranks holding that global vertex of the values they sent (the value itself when the sender side is a partition).", "quantifier": "all distributions and data", "why_tests_cant": "all distributions", "anchors": ["src/m2n/GatherScatterCommunication.cpp: 66-207"]}
{"id": "C61", "title": "Point-to-point delivers the same values as gather-scatter", "statement": "For the same vertex distributions, point-to-point and gather-scatter communication deliver the same values to every rank.", "quantifier": "all pairs of distributions, all data", "why_tests_cant": "all distributions", "anchors": ["src/m2n/PointToPointCommunication.cpp: buildCommunicationMap 261-306, send 610-629, receive 631-655", "src/utils/algorithm.hpp: set_intersection_indices 32-46"]}
{"id": "C62", "title": "Vertices without a partner read zero", "statement": "A vertex whose value no remote rank sends receives the value zero.", "quantifier": "all distributions", "why_tests_cant": "only ranks without any partner expose the failure", "anchors": ["src/m2n/PointToPointCommunication.cpp: receive 631-655", "src/cplscheme/BaseCouplingScheme.cpp: receiveData 167-204"]}
{"id": "C63", "title": "Collective sums are global sums", "statement": "Reductions used by convergence measures and accelerations return the sum over all ranks to every rank (all-reduce) or to the primary (reduce), broadcasts deliver the primary's value, and the collective communication does not deadlock.", "quantifier": "all numbers of ranks, all values, all schedules", "why_tests_cant": "schedules", "anchors": ["src/com/Communication.cpp: 42-183", "src/utils/IntraComm.cpp: 149-357"]}
{"id": "C64", "title": "Parallel norms and dot products do not depend on the partitioning", "statement": "The norm and dot product used for convergence decisions of data distributed over ranks equals the serial one, so convergence verdicts do not depend on the partitioning and all ranks take the same decision.", "quantifier": "all partitionings of all vectors", "why_tests_cant": "all partitionings", "anchors": ["src/utils/IntraComm.cpp: l2norm 67-100, dot 102-138", "src/cplscheme/impl/*ConvergenceMeasure.hpp"]}
{"id": "C65", "title": "Waveform transfer is lossless", "statement": "Sending all samples of a data set and reading them on the other side reproduces times and values (and gradients) exactly, for any number of steps and values.", "quantifier": "all stores", "why_tests_cant": "all sizes", "anchors": ["src/com/SerializedStamples.cpp: serializeValues 47-58, deserialize 72-100"]}
{"id": "C66", "title": "Mesh transfer is lossless", "statement": "Sending a mesh and adding the received description to an empty mesh reproduces vertices, global ids and connectivity.", "quantifier": "all meshes with and without connectivity", "why_tests_cant": "all meshes", "anchors": ["src/com/SerializedMesh.cpp: serialize 157-233, addToMesh 97-155"]}
{"id": "C67", "title": "Partitioning information transfer is lossless", "statement": "Connection maps, bounding boxes and bounding-box maps survive serialization and deserialization unchanged.", "quantifier": "all maps, including empty ones", "why_tests_cant": "all maps", "anchors": ["src/com/SerializedPartitioning.cpp: 15-270"]}
{"id": "C68", "title": "Connection files are published atomically", "statement": "A participant waiting for connection information never reads a partial or empty file: at every point of the writer's progress, including a crash of the writer, a reader that finds the file reads the complete information of this or an earlier run.", "quantifier": "all interleavings of writer and reader and all crash points", "why_tests_cant": "interleavings and crash points", "anchors": ["src/com/ConnectionInfoPublisher.cpp: read 52-84, write 110-156"]}
{"id": "C69", "title": "Asynchronous sends keep their order", "statement": "Messages sent over a socket connection are written in the order in which they were sent, one at a time, none lost or duplicated, whatever the completion timing.", "quantifier": "all interleavings of sends and completions", "why_tests_cant": "thread interleavings", "anchors": ["src/com/SocketSendQueue.cpp: 20-52"]}
{"id": "C70", "title": "Circular intra-participant connection cannot deadlock", "statement": "The pairwise connection of ranks to a ring (used by matrix-based acceleration) cannot deadlock for any number of ranks.", "quantifier": "all numbers of ranks, all schedules", "why_tests_cant": "schedules, arbitrary rank counts including odd ones", "anchors": ["src/com/Communication.cpp: connectCircularComm 359-394"]}
{"id": "C71", "title": "Constant relaxation is a convex combination and keeps fixed points", "statement": "Constant under-relaxation replaces every sample after the window start by omega*new + (1-omega)*old, leaves the window start untouched, stays between old and new values and leaves converged data (new = old) unchanged.", "quantifier": "all data, all 0 < omega <= 1, all grids", "why_tests_cant": "real-valued data", "anchors": ["src/acceleration/Acceleration.cpp: applyRelaxation 17-46", "src/acceleration/ConstantRelaxationAcceleration.cpp"]}
{"id": "C72", "title": "Aitken solves scalar affine problems in two steps", "statement": "For a scalar affine fixed-point problem Aitken relaxation reaches the exact solution with its second relaxation, starts every window with a factor not larger than the initial relaxation, and is undefined (division by zero) exactly if two consecutive residuals are equal.", "quantifier": "all affine problems with slope different from one, all starting values", "why_tests_cant": "real-valued data", "anchors": ["src/acceleration/AitkenAcceleration.cpp: performAcceleration 61-110, iterationsConverged 112-120"]}
{"id": "C73", "title": "Quasi-Newton column bookkeeping is consistent", "statement": "In every history of iterations, filters and converged windows the number of columns accounted to windows equals the number of columns of the least-squares system and never exceeds max-used-iterations.", "quantifier": "all histories of iterations, filter decisions and window completions", "why_tests_cant": "unbounded histories", "anchors": ["src/acceleration/BaseQNAcceleration.cpp: updateDifferenceMatrices 266-356, iterationsConverged 617-713, removeMatrixColumn 721-747"]}
{"id": "C74", "title": "Quasi-Newton reuses only the configured windows", "statement": "After a window has converged, the least-squares system only contains columns of at most time-windows-reused earlier windows, the most recent ones that contributed columns; older ones have been removed completely and no others. With time-windows-reused 0 no column of an earlier window is used after the first iteration of a window.", "quantifier": "all histories", "why_tests_cant": "needs particular filter decisions over several windows", "anchors": ["src/acceleration/BaseQNAcceleration.cpp: iterationsConverged 678-712, removeMatrixColumn 721-747"]}
{"id": "C75", "title": "Quasi-Newton removes the right columns", "statement": "Columns that cannot be orthogonalised or are filtered are removed from the least-squares system and only those, so the stored differences and the factorisation describe the same columns, which are linearly independent, whenever an update is computed.", "quantifier": "all sets of failing columns", "why_tests_cant": "only sets with two or more failing columns expose the failure", "anchors": ["src/acceleration/BaseQNAcceleration.cpp: performAcceleration 424-464", "src/acceleration/impl/QRFactorization.cpp: reset 757-796"]}
{"id": "C76", "title": "Bounded data stays in its bounds under quasi-Newton", "statement": "With bound handling `clamp`, `scale-to-bound` or `discard`, data handed to the solver after acceleration respects the configured lower and upper bounds at every stored time of the window (for scale-to-bound and discard: if the solver output did), and data within its bounds is not changed by the bound handling.", "quantifier": "all data layouts, bounds, time grids", "why_tests_cant": "real-valued data and multi-step layouts", "anchors": ["src/acceleration/BaseQNAcceleration.cpp: checkBoundViolation 117-149, onBoundViolations* 151-223, clampToBounds 225-235, computeShorteningFactor 237-258"]}
{"id": "C77", "title": "Preconditioning is reversible", "statement": "Applying and reverting a preconditioner is the identity on vectors and matrices in every reachable state of every preconditioner type.", "quantifier": "all update histories", "why_tests_cant": "unbounded histories", "anchors": ["src/acceleration/impl/Preconditioner.hpp: 62-169", "src/acceleration/impl/*Preconditioner.cpp"]}
{"id": "C78", "title": "Frozen preconditioners stay frozen", "statement": "After freeze-after windows the preconditioner weights no longer change.", "quantifier": "all histories", "why_tests_cant": "unbounded histories", "anchors": ["src/acceleration/impl/Preconditioner.hpp: update 176-193"]}
{"id": "C79", "title": "QR updates keep the factorisation", "statement": "Inserting or deleting a column updates the factorisation such that the product of the factors is the matrix with that column inserted or deleted, the first factor keeps orthonormal columns and the second stays upper triangular.", "quantifier": "all matrices and positions", "why_tests_cant": "real-valued data", "anchors": ["src/acceleration/impl/QRFactorization.cpp: deleteColumn 200-239, insertColumn 242-337, computeReflector 653-672, applyReflector 678-693"]}
{"id": "C80", "title": "Convergence measures are sound", "statement": "Each measure reports convergence iff the configured inequality between the norm of the change and its reference holds; identical successive iterates satisfy absolute and relative measures; relative and residual-relative verdicts are invariant under scaling of the data; absolute-or-relative is the disjunction.", "quantifier": "all data and limits", "why_tests_cant": "real-valued data", "anchors": ["src/cplscheme/impl/*ConvergenceMeasure.hpp"]}
{"id": "C81", "title": "Exactly one rank writes a watch point", "statement": "If some rank has vertices, exactly one rank is selected in parallel to write a watch point, it is one with minimal distance to the point (the lowest rank among equals), all ranks return from the selection, and the written value is the interpolation on that rank.", "quantifier": "all distances, all numbers of ranks", "why_tests_cant": "all distance vectors including ties", "anchors": ["src/precice/impl/WatchPoint.cpp: initialize 56-89"]}
{"id": "C82", "title": "Watch integrals do not depend on the partitioning", "statement": "The value written by a watch integral equals the integral over the whole mesh (with scaling) or the sum over all vertices (without), and the surface area column the area of the mesh, independently of how the mesh is distributed over ranks.", "quantifier": "all partitionings", "why_tests_cant": "only partitionings with ranks without connectivity expose the failure", "anchors": ["src/precice/impl/WatchIntegral.cpp: 59-141"]}
{"id": "C83", "title": "Summation action writes the sum", "statement": "After a summation action the target holds at every sample time of the sources exactly the sum of the sources; sources whose sample times do not agree are rejected with an error.", "quantifier": "all stores", "why_tests_cant": "all stores", "anchors": ["src/action/SummationAction.cpp: performAction"]}
{"id": "C84", "title": "Multiply- and divide-by-area are inverse", "statement": "Multiplying by area and dividing by area are inverse to each other on meshes in which every vertex belongs to an element of positive area; the areas add up to the total area of the mesh and the multiplied values to the surface integral; meshes without the needed connectivity are refused.", "quantifier": "all meshes and data", "why_tests_cant": "real-valued data", "anchors": ["src/action/ScaleByAreaAction.cpp: performAction 26-72"]}
{"id": "C85", "title": "Locks report consistent counts", "statement": "For every history of lock operations the number of locked plus unlocked entries is the number of entries; lock-all/unlock-all/check-all behave accordingly and unknown names are reported.", "quantifier": "all histories", "why_tests_cant": "unbounded histories", "anchors": ["src/utils/MultiLock.hpp"]}
{"id": "C86", "title": "Generated ids are unique", "statement": "Automatically assigned ids never collide with each other or with ids reserved before (since the last reset); reservations are refused exactly for ids in use; every request is answered.", "quantifier": "all histories of reservations and requests", "why_tests_cant": "unbounded histories", "anchors": ["src/utils/ManageUniqueIDs.cpp"]}
{"id": "C87", "title": "Name suggestions use the true edit distance", "statement": "The distance used for 'did you mean' hints is the Levenshtein distance: zero iff equal, symmetric, and minimal over all edit sequences. Hints name exactly known names at most two edits away, nearest first; otherwise all known names are listed.", "quantifier": "all pairs of strings", "why_tests_cant": "all strings", "anchors": ["src/utils/String.cpp: editDistance 79-101"]}
{"id": "C88", "title": "Geometric primitives are computed correctly", "statement": "Edge lengths, triangle areas and tetrahedron volumes are non-negative, independent of vertex order; the unit normal of a triangle is orthogonal to its edges; line intersection returns a point on both lines.", "quantifier": "all coordinates", "why_tests_cant": "real-valued coordinates", "anchors": ["src/mesh/Triangle.cpp: computeNormal 75-82", "src/math/geometry.cpp"]}
{"id": "C89", "title": "Versions and configurations are cross-checked on connection", "statement": "Two participants that connect proceed only if their preCICE versions and configuration hashes agree; otherwise both abort with an error.", "quantifier": "all versions and hashes", "why_tests_cant": "all strings", "anchors": ["src/m2n/M2N.cpp: checkRemoteInfo 54-71, 73-130"]}
{"id": "C90", "title": "Remeshing is agreed on by both participants", "statement": "In a parallel coupling of pairwise connected participants with remeshing enabled, if any participant resets a mesh all reinitialize in the same advance(), otherwise none does, and the agreement cannot deadlock.", "quantifier": "all combinations of mesh changes", "why_tests_cant": "all interleavings", "anchors": ["src/precice/impl/ParticipantImpl.cpp: reinitHandshake 1924-1956, advance 392-466"]}
{"id": "C91", "title": "Two triangles of a quad cover the quad", "statement": "Defining a quad whose first three corners are not collinear yields two triangles that use exactly its four vertices, share exactly one diagonal, whose combined area is the quad's area, and the chosen diagonal is the shorter one.", "quantifier": "all convex quads", "why_tests_cant": "real-valued coordinates", "anchors": ["src/precice/impl/ParticipantImpl.cpp: setMeshQuad* 975-1092", "src/mesh/Utils.hpp: asChain 71-107"]}
{"id": "C92", "title": "The IQN-ILS update is the least-squares solution and solves affine problems", "statement": "The combination of stored differences that IQN-ILS adds minimises the (weighted) linearised residual over all combinations. If the coupled solvers are affine maps and the residual is a combination of the stored residual differences, in particular when there are as many independent columns as primary unknowns, the accelerated values are a fixed point of the coupled problem, for any weights of the preconditioner, any filter decisions and any columns reused from earlier windows.", "quantifier": "all affine coupled problems, dimensions, histories, weights", "why_tests_cant": "all affine maps and histories; unit tests check a few numbers", "anchors": ["src/acceleration/IQNILSAcceleration.cpp: updateDifferenceMatrices 24-48, computeQNUpdate 50-112", "src/acceleration/BaseQNAcceleration.cpp: performAcceleration 395-520"]}
{"id": "C93", "title": "The multi-vector quasi-Newton method keeps a Jacobian across windows and changes it as little as the new differences demand", "statement": "With acceleration:IQN-IMVJ the update of every iteration is J·(-residual), where J is the matrix closest to the Jacobian kept from earlier windows (in the norm of the preconditioner) that maps every stored residual difference of the window to the stored value difference. When a window converges this matrix, taken over the columns the filter keeps, becomes the kept Jacobian; within a window it does not change. For affine coupled problems the kept Jacobian never moves away from the true inverse, the update is a fixed point when the residual is spanned by the stored differences, and it is a fixed point in the first quasi-Newton iteration once the kept Jacobian is exact. In the restart modes the product of the stored factors is that same Jacobian until a restart happens. RS-0 and RS-SLIDE never keep more factors than the configured chunk size, and RS-0 starts again from the zero matrix when it is exceeded.", "quantifier": "all residual histories, weights, filter decisions, restart chunk sizes and window counts; exact real arithmetic; filters QR2 and QR3", "why_tests_cant": "needs all histories over several windows; unit tests check a few numbers of one or two windows", "anchors": ["src/acceleration/IQNIMVJAcceleration.cpp: updateDifferenceMatrices 74-146, computeQNUpdate 149-173, pseudoInverse, buildWtil, buildJacobian, computeNewtonUpdateEfficient, computeNewtonUpdate, restartIMVJ 430-614, specializedIterationsConverged 617-724", "src/acceleration/BaseQNAcceleration.cpp: performAcceleration 363-554, iterationsConverged 617-713"]}
{"id": "C94", "title": "Distributed matrix products of the multi-vector quasi-Newton method equal the serial products", "statement": "A parallel participant with acceleration:IQN-IMVJ keeps the Jacobian distributed by columns and its other matrices distributed by rows. Whatever the distribution of the coupling data over the ranks, including ranks without vertices, each of its matrix products completes on all ranks at any relative speed, and each rank ends up with exactly the rows or columns which a serial participant computes for the whole matrices: rows times distributed columns (the new Jacobian, passed around the ring of ranks), distributed columns times rows (Jacobian times residuals or differences, summed on the primary rank and distributed), and products with a small result that every rank keeps.", "quantifier": "all matrices, distributions, rank counts, empty ranks, previous contents of the result, interleavings", "why_tests_cant": "tests multiply fixed matrices on four ranks; correctness for every distribution and absence of deadlock in the ring need a proof", "anchors": ["src/acceleration/impl/ParallelMatrixOperations.hpp: multiply 30-73 and 87-109, _multiply_cyclic 114-215, _multiplyNM_block 254-305", "src/acceleration/BaseQNAcceleration.cpp: initializeVectorsAndPreconditioner 899-917", "src/com/Communication.cpp: connectCircularComm 359-400, reduceSum 42-72"]}
{"id": "C95", "title": "Global RBF mapping interpolates, reproduces affine functions and conserves", "statement": "Whenever a global direct radial-basis-function mapping can be set up, a consistent mapping returns exactly the written value at every output vertex that coincides (in the active axes) with an input vertex, and maps every affine function of the active axes exactly when a polynomial is used (integrated, or separated with at least as many input vertices as polynomial coefficients; axes dropped as degenerate excepted where the data leave the plane). The value at an output vertex does not depend on the other output vertices or on the numbering of the input vertices. The conservative mapping is the exact transpose and so preserves the sum and the first moments of the data. Input vertices that coincide in the active axes are rejected with an error, and the search for usable polynomial axes always ends.", "quantifier": "all meshes, basis functions, data, polynomial modes, dead axes", "why_tests_cant": "tests check a few vertices and a few basis functions to a tolerance; the property quantifies over all point sets and basis functions, and over every decision of the rank-revealing decomposition", "anchors": ["src/mapping/RadialBasisFctSolver.hpp: reduceActiveAxis 117-138, fillPolynomialEntries 141-162, buildMatrixCLU 165-207, buildMatrixA 210-242, constructor 341-412, solveConservative 415-440, solveConsistent 444-474", "src/mapping/RadialBasisFctMapping.hpp: 190-392"]}
{"id": "C96", "title": "A global RBF mapping in parallel gives the values of the serial mapping", "statement": "Let every vertex of the mesh on which a global direct radial-basis-function mapping interpolates be owned by exactly one rank; ranks may hold copies, ranks may be empty, and the vertices may be numbered in any way. Then the mapping completes on all ranks whatever their relative speed, also when sends block. A consistent mapping gives every rank, at each of its output vertices and for each component, exactly the value that the same mapping gives there in a serial run. A conservative mapping whose input vertices are each held by one rank gives each rank the serial value at the vertices it owns and leaves the values at copies untouched, so every value counts once. Without the ownership condition this fails: a vertex that lies further than the support radius from the output vertices of every rank is dropped on all ranks, and the mapping then accesses memory out of bounds.", "quantifier": "all meshes, distributions, rank counts, basis functions, polynomial modes, data, interleavings", "why_tests_cant": "tests use two to four ranks and fixed distributions; equality with the serial result must hold for every distribution and every order of arrival", "anchors": ["src/mapping/RadialBasisFctMapping.hpp: computeMapping 93-160, mapConservative 199-310, mapConsistent 312-392", "src/mapping/RadialBasisFctBaseMapping.hpp: tagMeshFirstRound 124-155", "src/mesh/Mesh.cpp: getOwnedVertexData 324-345"]}
{"id": "C97", "title": "Partition-of-unity RBF mapping blends local interpolants and never loses data", "statement": "Whenever a partition-of-unity mapping can be set up, the mapped value at an output vertex is the average of the local interpolants of all clusters around the vertex, with weights that are positive, vanish for clusters which do not contain the vertex and sum to one. Hence values at coinciding vertices are reproduced exactly, constants and affine functions are reproduced if every cluster has enough vertices for its polynomial, the conservative mapping is the exact transpose and preserves the total load, and values farther away than two cluster radii have no influence. Every output vertex inside some cluster is mapped and a vertex outside all clusters is reported as an error, never silently mapped to zero. Reading just in time at a location gives the same value as an ordinary mapping to a vertex there, and writing just in time is the transpose of reading.", "quantifier": "all meshes, cluster centres and radii, basis functions, values, locations", "why_tests_cant": "tests use a few meshes with well-placed vertices; the claim is about every position of vertices relative to the cluster boundaries and every combination of cached writes", "anchors": ["src/mapping/PartitionOfUnityMapping.hpp: computeMapping 177-279, computeNormalizedWeight 282-337, mapConservative 340-357, mapConsistent 360-379, mapConservativeAt 381-406, completeJustInTimeMapping 411-424, mapConsistentAt 452-475", "src/mapping/impl/SphericalVertexCluster.hpp: 140-333", "src/mapping/RadialBasisFctSolver.hpp: computeCacheData, interpolateAt, addWriteDataToCache, evaluateConservativeCache 470-575"]}
{"id": "C98", "title": "Radial basis functions have the advertised support and smoothness", "statement": "Every compactly supported basis function vanishes from the configured support radius on, is positive and strictly decreasing inside of it, and the polynomial called Ck has k continuous derivatives everywhere, in particular at the centre and at the support radius. All basis functions are continuous. A Gaussian configured by its support radius is a Gaussian that has decayed to the cut-off threshold at this radius. Functions that declare themselves strictly positive definite give positive definite interpolation matrices for distinct vertices. Non-positive support radii and shape parameters are rejected. As a consequence an output vertex beyond the support of all input vertices gets the value of the polynomial only.", "quantifier": "all radii, support radii, shape parameters, meshes", "why_tests_cant": "tests evaluate the functions at a few radii; a wrong coefficient changes smoothness at the centre or at the support radius without visible change of the sampled values", "anchors": ["src/mapping/impl/BasisFunctions.hpp: 87-613", "src/math/math.hpp: pow_int 22-38", "src/mapping/config/MappingConfiguration.cpp: constructRBF 113-153, 507-526"]}
{"id": "C99", "title": "Automatic clustering covers the meshes", "statement": "The clusters which a partition-of-unity mapping chooses automatically from the number of vertices per cluster and the relative overlap cover both meshes: every output vertex (or location, for just-in-time mapping) that has an input vertex closer than the relative overlap times the cluster radius lies inside a cluster together with this input vertex. Every cluster that is kept contains input vertices and, unless the mapping is just in time, output vertices. For small meshes a single cluster contains all input vertices. For distinct vertices the radius is positive, and a clustering is found whenever some output vertex is close to the input mesh. Hence every mesh can be mapped onto itself with the default settings.", "quantifier": "all meshes in two and three dimensions, numbers of vertices per cluster, overlaps, tie-breaking of the nearest-vertex search", "why_tests_cant": "tests check a handful of regular grids; gaps depend on how the grid of centres, rounded to whole numbers of clusters, falls relative to irregular vertices", "anchors": ["src/mapping/impl/CreateClustering.hpp: estimateClusterRadius 223-278, createClustering 302-505, tagEmptyClusters 130-142, projectClusterCentersToinputMesh 148-162, tagDuplicateCenters 173-196", "src/mapping/config/MappingConfiguration.cpp: 243-249"]}
{"id": "C100", "title": "Coarse graining turns point loads into a density with the same total", "statement": "Writing loads of particles at arbitrary locations through a coarse-graining mapping adds to every vertex of the accessed mesh the sum of all loads, each weighted by the kernel at the distance of its particle, independent of the order of the particles and of how they are spread over calls of writeAndMapData. The kernel is nowhere negative, once continuously differentiable, vanishes from the function radius on, and the density of a unit load integrates to one over the space. No load is lost.", "quantifier": "all meshes, radii, particle locations and loads, all sequences of calls", "why_tests_cant": "tests compare a few particles with precomputed values; a normalisation or a search radius that is off shows only in the integral or for certain distances", "anchors": ["src/mapping/CoarseGrainingMapping.cpp: 16-102", "src/query/Index.cpp: getVerticesInsideBox"]}
{"id": "C101", "title": "Several explicit coupling schemes complete and exchange the right data whenever they have an order", "statement": "Any number of participants are coupled by any number of serial-explicit and parallel-explicit coupling schemes with a common window size and end. If no two schemes are between the same participants, if the participants can be put on levels so that serial schemes lead to a higher level and parallel schemes stay on a level, and if initial data does not have to wait for an earlier serial scheme of its sender, then every run in which the solvers step to the window ends completes, whatever the relative speed of the participants: no deadlock, no error, no message left over. All participants see the same window starts and the coupling ends for all of them at the same window. In window n the second participant of a serial scheme reads what the first one wrote in window n, every other read returns what was written in window n-1, or the initial data. A cycle of serial schemes never gets past initialize. The levels are needed, the order of the schemes in the configuration can decide between completion and deadlock, and two schemes between the same participants can hand data of one scheme to the other.", "quantifier": "all networks of explicit schemes, all solvers and subcycling patterns, all window counts, all interleavings", "why_tests_cant": "deadlocks depend on the whole network, the order in the configuration and the interleaving; tests run two or three fixed configurations", "anchors": ["src/cplscheme/CompositionalCouplingScheme.cpp: initialize 71-79, firstSynchronization..advance 81-230", "src/cplscheme/SerialCouplingScheme.cpp: exchangeInitialData 91-119, exchangeFirstData 121-152, exchangeSecondData 154-209", "src/cplscheme/ParallelCouplingScheme.cpp: exchangeInitialData 35-60", "src/cplscheme/config/CouplingSchemeConfiguration.cpp: 394-427, 812-850"]}
{"id": "C102", "title": "The restart mode RS-SVD keeps the Jacobian up to its truncation threshold", "statement": "With acceleration:IQN-IMVJ and restart mode RS-SVD a window adds its contribution to the kept Jacobian, and a restart, which happens when more than the configured number of windows is stored, replaces what is stored by a truncated singular value decomposition of the same matrix: singular vectors are orthonormal, singular values are not negative, in decreasing order and at least the threshold times the largest one, and in the variables of the preconditioner the relative change of the Jacobian is at most (1 + threshold)^n - 1 for n stored windows. The stored data never exceeds the configured number of windows and the rank never exceeds the number of unknowns, however many windows are computed.", "quantifier": "all sequences of windows with all contributions and weights, all thresholds and chunk sizes; exact real arithmetic", "why_tests_cant": "a bound for all contributions and numbers of restarts; unit tests update one decomposition with a few numbers and never change the weights in between", "anchors": ["src/acceleration/impl/SVDFactorization.hpp: update 51-173", "src/acceleration/impl/SVDFactorization.cpp: computeQRdecomposition 76-234", "src/acceleration/IQNIMVJAcceleration.cpp: restartIMVJ 437-498, specializedIterationsConverged 675-700"]}
{"id": "C103", "title": "The restart mode RS-LS keeps the smallest Jacobian that fits the stored differences", "statement": "With acceleration:IQN-IMVJ and restart mode RS-LS a restart replaces the stored factors by one: the Jacobian that maps every stored residual difference to the stored difference of values and is zero on everything orthogonal to them, which is the smallest such matrix in every row. The stored differences are differences of consecutive iterations of the last window and of at most reused-time-windows-at-restart earlier windows, newest first, and fewer than half as many as there are unknowns. For affine solvers the result is at least as close to the exact Jacobian as the zero matrix. The number of stored factors never exceeds the chunk size. With filter QR2 or QR3 the restart always succeeds if there are three or more unknowns and the newest difference is not zero.", "quantifier": "all runs with any number of windows and iterations, all residuals, values and weights, all chunk sizes, reuse settings and numbers of unknowns; exact real arithmetic", "why_tests_cant": "a statement about all residual histories and column counts; the integration tests run one small problem and never reach the shortening, or an interface of one or two unknowns", "anchors": ["src/acceleration/IQNIMVJAcceleration.cpp: updateDifferenceMatrices 91-126, restartIMVJ 500-567, specializedIterationsConverged 617-724, removeMatrixColumnRSLS 824-847, removeColumn 727-739"]}
{"id": "C104", "title": "What is read is what the partner wrote, mapped, at the times at which it was written", "statement": "For data exchanged between two participants, in every window and iteration, the samples that readData() interpolates are exactly these: at the window start the last value that the partner wrote in the previous window (or its initial data), and after it the values that the partner wrote in the iteration whose data are due - the current one for the second participant of a serial scheme, the previous iteration of the same window otherwise, none in its first iteration - at all its steps with substeps, at the end of the window else; each value mapped by the write mapping and the read mapping, and accelerated where the scheme accelerates. No value of an earlier iteration or window is left over, whatever the numbers of steps, and no call fails. In the last window, which max-time may cut short, this holds as well.", "quantifier": "all schedules of windows, iterations and steps (spaced by more than twice the tolerance), all written values, all write and read mappings or none, with and without substeps and initial data, all results of acceleration; explicit and implicit, serial and parallel schemes", "why_tests_cant": "the storages of four data objects are trimmed, moved, cleared and mapped in different places and orders for each scheme; tests cover single combinations with one or two windows, and none combines a truncated last window, serial coupling and linear interpolation without substeps", "anchors": ["src/precice/impl/ParticipantImpl.cpp: initialize 274-292, advance 392-466, handleDataBeforeAdvance 468-494, handleDataAfterAdvance 496-543, trimOldDataBefore 570-578, trimSendDataAfter 580-585, mapInitialWrittenData ... mapReadData 1644-1729", "src/precice/impl/DataContext.cpp: mapData 110-174", "src/precice/impl/ReadDataContext.cpp: clearToDataFor 70-84, trimToDataAfterFor 86-95", "src/precice/impl/WriteDataContext.cpp: trimAfter 22-31", "src/cplscheme/BaseCouplingScheme.cpp: sendData 113-150, receiveData 168-203, receiveDataForWindowEnd 205-217, moveToNextWindow 424-430", "src/cplscheme/SerialCouplingScheme.cpp: exchangeInitialData ... implicitDataToReceive 88-230", "src/cplscheme/ParallelCouplingScheme.cpp: 35-112"]}
{"id": "C105", "title": "Quasi-Newton acceleration with subcycling works on times that fit every window", "statement": "With quasi-Newton acceleration the accelerated data have samples at the same relative times in every window: those of the first window with more than one iteration. They increase, lie inside the window, and the last one is its end, however many steps the participants do in each iteration and also if a window is shorter than the others; so the number of unknowns never changes. Each data contributes its values at its own times, and gets back exactly its part of the accelerated vector. Where a participant's steps are at these times the method sees the written values themselves, and what it does not change stays as it was written. With the reduced variant only the end of the window is used.", "quantifier": "all numbers of windows and iterations, all window sizes and times of steps in each iteration, all numbers and sizes of data, all values, all interpolation degrees; windows long enough that no time of the grid is within the tolerance of the window start", "why_tests_cant": "tests use a few fixed step patterns; the grid is carried over from window to window by repeated transformation, so errors in bookkeeping show up only for changing numbers of steps, truncated windows, and windows that converge in their first iteration", "anchors": ["src/time/TimeGrids.cpp: 11-60", "src/acceleration/BaseQNAcceleration.cpp: performAcceleration 373-392, updateCouplingData 581-607, iterationsConverged 633-646, 672-673, concatenateCouplingData 828-850, initializeVectorsAndPreconditioner 852-876", "src/time/Waveform.cpp: sample 200-228"]}
{"id": "C106", "title": "Numbers in the configuration are read as written", "statement": "An attribute that holds an integer is read as exactly that integer, one that holds a decimal number with optional sign, fraction and exponent, a quotient of two such numbers, or a list of them separated by semicolons, is read as exactly the value written, on every machine and whatever attributes were read before. A text that is not such a number is rejected with an error.", "quantifier": "all literals of any length with any leading blanks, all locales that may be installed, all texts for the rejection", "why_tests_cant": "tests feed a dozen literals on one machine; what the stream operators do with incomplete, empty, grouped or huge numbers depends on their error flags and on the installed locales", "anchors": ["src/xml/ValueParser.cpp: 15-69", "src/xml/XMLAttribute.hpp: readValue"]}
{"id": "C107", "title": "A configuration is accepted exactly if it fits the schema, and each element is handed over with its own values", "statement": "A configuration file is accepted exactly if all its tags and attributes are known at their place, required tags and attributes are there, tags that may occur once per parent do not occur twice, and every given value is readable and one of the allowed options. Otherwise there is an error message. If it is accepted, the parts of preCICE are told about every element once, in the order and nesting of the file, each with the values of its own attributes and the defaults of those it does not give. Nothing of an earlier element or an earlier file influences a later one.", "quantifier": "all schemas with distinct names of subtags, all configuration trees of any depth and width, all states left behind by earlier elements and files", "why_tests_cant": "the objects of the schema are reused for every element and carry flags and values along; which leftovers matter depends on the order and number of elements, of which tests have a few", "anchors": ["src/xml/ConfigParser.cpp: connectTags 249-304", "src/xml/XMLTag.cpp: readAttributes, areAllSubtagsConfigured, resetAttributes 184-274", "src/xml/XMLAttribute.hpp: readValue 160-192"]}
{"id": "C108", "title": "What one participant sends is what its partner expects", "statement": "From one configuration, every participant derives on its own which data it sends to and receives from each partner. These lists agree: the data one participant sends to another are, in the same order and with the same settings for substeps and initial values, the data the other expects from it, namely those of the exchange tags between them in that direction. Both sides also agree on whether there are initial data to transfer. A configuration in which this would go wrong (unknown participants, the same data twice or in both directions, contradicting settings) is refused with an error message.", "quantifier": "all sets of exchange tags in any order, two participants or any number in a multi coupling scheme", "why_tests_cant": "the two lists are computed in different processes from the same tags by an order-dependent insertion; a mismatch shows up as a deadlock or as swapped data only for particular combinations of tags", "anchors": ["src/cplscheme/config/CouplingSchemeConfiguration.cpp: addDataToBeExchanged, addMultiDataToBeExchanged 996-1103", "src/cplscheme/BaseCouplingScheme.cpp: addCouplingData 228-251", "src/cplscheme/BiCouplingScheme.cpp 50-84", "src/cplscheme/MultiCouplingScheme.cpp 176-206"]}
{"id": "C109", "title": "Exactly the well-posed coupling schemes are accepted, and they run with the configured values", "statement": "A coupling scheme is accepted exactly if it has an end (time or windows), all its limits are positive, the minimum of iterations does not exceed the maximum, the limits of the convergence measures make sense, participants are different and connected, exchanges are consistent, and measures and acceleration refer to data of the participant that evaluates them. Otherwise there is an error message, never a failed assertion. Each participant gets a scheme with the values of the tags or the documented defaults, independent of the order of the tags. An implicit scheme that could iterate forever is refused. A participant has at most one implicit scheme.", "quantifier": "all lists of tags that fit the schema, in any order, all five kinds of schemes, all values, any number of participants and schemes", "why_tests_cant": "the checks are spread over tags, end tag, constructors and several add functions, and some look at values that an earlier step has changed; tests try single wrong values, not all combinations", "anchors": ["src/cplscheme/config/CouplingSchemeConfiguration.cpp: xmlTagCallback, xmlEndTagCallback, addCouplingScheme 165-427", "src/cplscheme/config/CouplingSchemeConfiguration.cpp: create*CouplingScheme, checkIterationLimits 793-994", "src/cplscheme/BaseCouplingScheme.cpp: constructor 33-90"]}
{"id": "C110", "title": "All participants get through initialize and finalize together", "statement": "Any number of participants that are started with one configuration connect to all their partners, exchange meshes and the distributions of meshes, and leave initialize() without a deadlock, whatever the order in which they run and whether messages are buffered or not; also if meshes are received crosswise. Afterwards each participant has exactly the meshes it asked for as their providers defined them, and the distributions of its point-to-point partners. Calls of finalize(), with or without waiting for the others, end as well, even if some participants are still coupling or initializing. Participants with different preCICE versions or configurations never get through initialize(). Two things are required and not checked: no participant is linked with itself, and who receives a mesh gets it from a participant that provides it.", "quantifier": "all numbers of participants, sets of links in any role and order, sets of meshes and receivers, all schedules, blocking and buffered communication", "why_tests_cant": "a deadlock needs a particular cycle of participants waiting for each other; tests run a few pairs and triples with one schedule each", "anchors": ["src/precice/impl/ParticipantImpl.cpp: setupCommunication 321-378, computePartitions 1567-1625, closeCommunicationChannels 1828-1866", "src/m2n/M2N.cpp 44-163", "src/m2n/BoundM2N.cpp", "src/precice/config/Configuration.cpp: getBoundM2NsFor, configurePartitionsFor 131-225", "src/partition/ProvidedPartition.cpp: communicate 35-112", "src/partition/ReceivedPartition.cpp: communicate 44-88"]}
{"id": "C111", "title": "Time interpolation is exact for polynomials up to the waveform degree and linear in the data", "statement": "If the samples of a window lie on a polynomial in time of at most the waveform degree (and of a degree below the number of samples), readData at any time of the window returns the value of that polynomial, for every choice of time steps. Before the first and after the last stored time the nearest sample is returned (degree 1 and higher). Every read is a combination of the stored values whose weights depend only on the stored times, the degree and the time of the read; hence mapping the samples and then interpolating gives the same as interpolating and then mapping.", "quantifier": "all degrees, time grids, polynomials, read times, and linear maps of data", "why_tests_cant": "infinite families of grids and polynomials; solvability of the interpolation problem for every grid is a theorem about zeros of splines", "anchors": ["src/math/Bspline.cpp: 15-77", "src/time/Waveform.cpp: sample 200-228, computeUsedDegree 242-245"]}
{"id": "C112", "title": "A received mesh is distributed completely, and direct access gives exactly the vertices of the region", "statement": "With one-level initialization, the ranks of a participant distribute a received mesh without deadlock for every schedule, number of ranks, geometric filter, safety factor and set of mappings. Every rank keeps exactly the vertices in its access region and those its mappings ask for among the vertices within reach, unchanged and in the order of the provider, with the edges, triangles and tetrahedra all of whose vertices it keeps; every vertex needed in the first round has one owner. With direct access, getMeshVertexSize and getMeshVertexIDsAndCoordinates agree and return exactly the provider's vertices inside the region of this rank, in the provider's order, in serial and in parallel. Data read at a returned ID is what the provider wrote at that vertex; what is written at vertices arrives there, summed over the ranks that share the vertex, zero where no rank holds it. mapAndReadData and writeAndMapData accept exactly points within the region with matching numbers of coordinates and values.", "quantifier": "all meshes with unique global IDs, numbers of ranks, regions, filters, safety factors, behaviours of mappings, schedules", "why_tests_cant": "numbers of ranks, overlapping regions, mappings and schedules are unbounded; tests fix a few partitions", "anchors": ["src/partition/ReceivedPartition.cpp: compute 93-270, filterByBoundingBox 291-380, prepareBoundingBox 480-540, tagMeshFirstRound 921-948", "src/precice/impl/ParticipantImpl.cpp: getMeshVertexSize 738-771, mapAndReadData 1257-1322, writeAndMapData 1324-1385, setMeshAccessRegion 1437-1476, getMeshVertexIDsAndCoordinates 1478-1545", "src/precice/impl/ReceivedMeshContext.cpp: 11-45"]}
{"id": "C113", "title": "Local mappings give the same in parallel as in serial", "statement": "A participant that reads or writes through a nearest-neighbor mapping from or to a received mesh gets the same on any number of ranks: the received mesh is distributed without deadlock, the data is transferred, and every vertex of every rank gets the value the provider wrote at a vertex that is closest in the whole mesh; where only one vertex is closest this is the value of a serial run. With a conservative mapping the provider gets at each vertex the sum of what was written at the vertices assigned to it. The same holds for nearest-projection mappings with the closest point of the mesh instead of the closest vertex, and for linear cell interpolation with the cell around the vertex. Closest vertices are within reach if they are not farther away than the safety factor times the longest edge of the bounding box of the local mesh, or without geometric filter.", "quantifier": "all meshes with unique global IDs, partitions of both participants, numbers of ranks, filters, safety factors, data, schedules", "why_tests_cant": "partitions, meshes and schedules are unbounded; a wrong vertex only shows up for particular partitions and geometries", "anchors": ["src/mapping/NearestNeighborBaseMapping.cpp: computeMapping 30-84, tagMeshFirstRound 109-147", "src/mapping/BarycentricBaseMapping.cpp: tagMeshFirstRound 131-164, addPolation 166-173", "src/partition/ReceivedPartition.cpp: compute 93-270, filterByBoundingBox 291-380, prepareBoundingBox 480-540", "src/m2n/GatherScatterCommunication.cpp: send, receive"]}
{"id": "C114", "title": "Radial basis function mappings can be set up for every set of distinct vertices", "statement": "With a compactly supported polynomial or inverse multiquadrics as basis function, a mapping without or with separated polynomial can be set up for every set of input vertices, and only those, in which no two vertices coincide in the active axes; the interpolation matrix is then positive definite, as these functions declare. The same holds for multiquadrics with non-zero shape parameter, and for volume splines with more or less than one vertex. With integrated polynomial, multiquadrics and volume splines can be set up exactly for distinct vertices that do not lie in a common line or plane, and so can thin plate splines for vertices that are further apart than 1e-14. Compact thin plate splines can be set up for vertices further apart than 1e-14 of the support radius, and a Gaussian for distinct vertices within one support radius. Every cluster of a partition of unity with a positive definite function can be set up for distinct vertices. Functions declared strictly positive definite are refused with integrated polynomial.", "quantifier": "all numbers and positions of vertices, support radii, shape parameters, dead axes, cluster centers and radii", "why_tests_cant": "tests set up mappings for a few regular meshes; solvability for all point sets is an analytic fact about the functions, and a wrong coefficient destroys it without visible change of the values", "anchors": ["src/mapping/impl/BasisFunctions.hpp: 87-613", "src/mapping/RadialBasisFctSolver.hpp: buildMatrixCLU 165-207, constructor 341-412", "src/mapping/impl/SphericalVertexCluster.hpp: constructor 139-182"]}
{"id": "C115", "title": "Global radial basis function mappings give the same in parallel as in serial", "statement": "A participant that reads or writes through a global radial basis function mapping from or to a received mesh gets the same on any number of ranks: if every vertex of the received mesh is needed by some rank (a rank with vertices whose filter box contains it and, for compact support, within the support radius of its bounding box), the mesh is distributed, the data transferred and mapped without deadlock in every schedule. Every vertex of every rank then reads exactly the value a serial run computes there, and with a conservative mapping the provider gets at every vertex exactly what a serial run computes. Without geometric filter, vertices within the support radius of a local vertex are needed, and all vertices for functions without compact support.", "quantifier": "all meshes with unique global IDs, partitions of both participants, numbers of ranks, filters, safety factors, basis functions, polynomial modes, data, schedules", "why_tests_cant": "partitions, meshes and schedules are unbounded; vertices owned by no rank or by two ranks only occur for particular partitions", "anchors": ["src/mapping/RadialBasisFctBaseMapping.hpp: tagMeshFirstRound 123-154, tagMeshSecondRound 160-192", "src/mapping/RadialBasisFctMapping.hpp: 93-392", "src/partition/ReceivedPartition.cpp: compute 93-270", "src/m2n/GatherScatterCommunication.cpp: send, receive"]}
{"id": "C116", "title": "Two-level initialization connects the right ranks and distributes the mesh as one-level initialization does", "statement": "With two-level initialization between two parallel participants, if the bounding boxes of some ranks overlap, all ranks complete the connection of the mesh in every schedule; a rank of the provider and a rank of the receiver are connected exactly if the bounding box of the former and the filter box of the latter overlap, and both agree on it. Every rank of the receiver then has exactly the vertices and elements it has with one-level initialization, although it only receives the parts of the ranks it is connected to, and every vertex needed has one owner. The communication maps of two connected ranks list their common vertices in the same order. Data sent afterwards, in either direction and with any number of components, arrives at every vertex by its global ID, as the sum over all sending ranks which have it.", "quantifier": "all meshes, partitions, bounding boxes, numbers of ranks on both sides, filters, safety factors, tags of mappings, data, schedules", "why_tests_cant": "partitions and schedules are unbounded; wrong connections only show for particular arrangements of the boxes, and a missing message blocks only in particular ones", "anchors": ["src/partition/ProvidedPartition.cpp: compareBoundingBoxes 245-350, communicate 35-103", "src/partition/ReceivedPartition.cpp: communicate 44-91, compute 93-225, filterByBoundingBox 287-380, compareBoundingBoxes 382-490, createOwnerInformation", "src/m2n/PointToPointCommunication.cpp: broadcastSend 668, scatterAllCommunicationMap, gatherAllCommunicationMap, send 608, receive 640"]}
{"id": "C117", "title": "Exports are written exactly when configured, under names of their own, and listed in the series", "statement": "With every-n-time-windows=n, an exporter writes the mesh and its data at the start and at the end of time windows n, 2n, ..., whatever the iterations and the subcycling; with every-iteration, at the start and after every advance that reaches the end of a window. Every exported state can be found at the end of the simulation under its own name (init, dtK or itK), unchanged, and no other file is touched. In parallel the parallel file lists exactly the pieces of the ranks that have vertices, and these pieces exist. The series file lists the exported states in order with their times: once the coupling has ended, and with update-series at any time.", "quantifier": "all sequences of advance calls (iterations, subcycling, window ends), numbers of ranks, partitions, exporters of a participant, interleavings of the ranks, previous contents of the directory", "why_tests_cant": "the numbering depends on the history of iterations and subcycling; collisions of file names only show for particular configurations", "anchors": ["src/precice/impl/ParticipantImpl.cpp: handleExports, initialize, advance 500-560", "src/precice/impl/ParticipantState.cpp: exportInitial, exportIntermediate", "src/io/Export.cpp: formatIndex, keepExport, recordExport, writeSeriesFile", "src/io/ExportXML.cpp: doExport 60-158", "src/io/ExportVTK.cpp: doExport", "src/io/ExportCSV.cpp: doExport 40-75", "src/cplscheme/CompositionalCouplingScheme.cpp: getTimeWindows 300-312"]}
{"id": "C118", "title": "Exported files show the mesh and its data", "statement": "Reading an exported VTU, VTP, VTK or CSV file back gives exactly the vertices of the rank in order with their coordinates (padded with zeros to three), exactly the edges, triangles and tetrahedra of the mesh with their vertices, the rank, and for every data its value and gradient at every vertex under its name. Legacy VTK files keep all digits of a double; in the other formats every number is kept to 6 significant digits.", "quantifier": "all meshes in two and three dimensions, all connectivity, scalar and vector data with and without gradients, values, ranks", "why_tests_cant": "layouts depend on dimension, kind of data and connectivity; the offsets of cells only go wrong for particular mixtures of cells", "anchors": ["src/io/ExportXML.cpp: writeSubFile 159-194, exportGradient 196-230, exportData 232-288, writeVertex 290-302, exportPoints 333-344", "src/io/ExportVTU.cpp: 47-112", "src/io/ExportVTP.cpp: 36-103", "src/io/ExportVTK.cpp: 67-287", "src/io/ExportCSV.cpp: 76-128"]}
{"id": "C119", "title": "A configured participant maps exactly the data its tags say", "statement": "A participant of the configuration is accepted exactly if its tags are consistent: meshes are known, used once and received from others; data belongs to its mesh and is read or written once; mappings are possible for their method and constraint, distinct, from received meshes to provided ones for reading and the reverse for writing, each data is mapped from one mesh only and each mapping has data. Then each data is read through at most one mapping, from the data of the same name on the source mesh, written data goes through all mappings from its mesh, no data of a received mesh is the target of two writers of the participant, and each mapping is used. Otherwise there is an error message; never a crash.", "quantifier": "all meshes and data, all sequences of provide-mesh, receive-mesh, write-data, read-data and mapping tags, serial and parallel, all participants reading the configuration", "why_tests_cant": "the checks are spread over several passes over the tags; tests only cover single combinations", "anchors": ["src/precice/config/ParticipantConfiguration.cpp: xmlTagCallback 257-345, finishParticipantConfiguration 417-659, checkIllDefinedMappings 796-844", "src/mapping/config/MappingConfiguration.cpp: xmlTagCallback, createMapping 683-757, checkDuplicates", "src/precice/impl/ParticipantState.cpp: 223-243, 444-458", "src/precice/impl/DataContext.cpp: addJustInTimeMapping 83-104, mapData 110-174", "src/precice/impl/ReadDataContext.cpp: 14-26", "src/precice/impl/WriteDataContext.cpp: 131-140"]}
{"id": "C120", "title": "Vertices inside the mesh are interpolated in the cell around them", "statement": "With a linear cell interpolation mapping every vertex that lies in a non-degenerate triangle (2D) or tetrahedron (3D) of the other mesh is interpolated in a cell that contains it: the weights sum to one, none is negative beyond the tolerance, and the weighted mean of the corners is the vertex. Hence affine data is read exactly there, and with a conservative mapping sums and moments of what is written are kept, up to the tolerance for dropped weights.", "quantifier": "all meshes, all vertices inside non-degenerate cells, all data, all results of the tree search that are correct for bounding boxes", "why_tests_cant": "the search only sees bounding boxes of cells; whether the right cell is among the results depends on the whole mesh", "anchors": ["src/query/Index.cpp: getTriangleRTree 86-112, getTetraRTree 114-142, getClosestTriangles 211-223, getEnclosingTetrahedra 258-268, findCellOrProjection 286-312", "src/query/impl/RTreeAdapter.hpp: makeBox 213-223", "src/math/barycenter.cpp: 45-145", "src/mapping/LinearCellInterpolationMapping.cpp: 31-122"]}
{"id": "C121", "title": "The log files of implicit coupling tell what happened", "statement": "For every participant of an implicit coupling the file iterations.log has one row per completed time window, in order: the number of the window, the number of all iterations so far (the sum of the iterations of the rows up to there), the iterations of this window, and whether the window converged. For the participant that measures convergence, convergence.log has one row per iteration with the number of the window, the number of the iteration in it and the residual of every measure. The rows of earlier windows stay in the files, every row has all columns, and writing the files never changes or aborts the coupling.", "quantifier": "all window sizes, numbers of windows and iterations, substeps, received messages, convergence verdicts, residuals and remeshing events", "why_tests_cant": "the counters depend on the whole history of repeated and completed windows; tests compare a few short runs and never remesh", "anchors": ["src/cplscheme/BaseCouplingScheme.cpp: initialize 275-307, reinitialize 309-328, secondExchange 372-425, measureConvergence 690-749, initializeTXTWriters 751-780, advanceTXTWriters 782-797", "src/io/TXTTableWriter.cpp: 11-100", "src/acceleration/BaseQNAcceleration.cpp: 947-959", "src/precice/impl/ParticipantImpl.cpp: advance 427-441"]}
{"id": "C122", "title": "An action changes every sample exactly once", "statement": "A data action such as multiply-by-area is applied exactly once to each value: whatever was written (with timing write-mapping-post) arrives at the partner with the action applied once, and whatever is received and mapped (with timing read-mapping-post) is read with the action applied once. This holds for the value at the end of a window, for the values at substeps and for the value at the start of a window, in every iteration of an implicit coupling and in every window.", "quantifier": "all actions on the values of a sample, runs of windows and iterations, step sizes, with and without substeps, write mappings and acceleration, all kinds of schemes", "why_tests_cant": "whether a sample is changed again depends on which samples survive the repetition or completion of a window; the tests of actions use a single window or a single sample per window", "anchors": ["src/precice/impl/ParticipantImpl.cpp: initialize 274-289, handleDataBeforeAdvance 468-494, handleDataAfterAdvance 496-543, performDataActions 1731-1739", "src/action/ScaleByAreaAction.cpp: 26-72", "src/action/PythonAction.cpp: 88-115", "src/precice/impl/DataContext.cpp: mapData 110-174", "src/precice/impl/ReadDataContext.cpp: 70-95"]}
{"id": "C123", "title": "An acceleration is configured as written and documented", "statement": "The acceleration of an implicit coupling scheme is accepted exactly if its tags are meaningful: all data exist on their meshes and occur once, the relaxation factor is in (0,1], the number of used iterations is positive and the number of reused windows not negative, and IMVJ is not both restarted and built in every iteration. Otherwise there is an error message. The result has the values written in the tags and the documented defaults for what is left out, independent of the order of the tags. A coupling scheme has at most one acceleration, and no data are accelerated by two schemes.", "quantifier": "all lists of acceleration tags that conform to the schema, all orders of subtags, all attribute values and omissions, all numbers of coupling schemes", "why_tests_cant": "every attribute can be omitted independently and subtags come in any order; tests parse a handful of files", "anchors": ["src/acceleration/config/AccelerationConfiguration.cpp: connectTags, xmlTagCallback, xmlEndTagCallback, clear", "src/acceleration/config/AccelerationConfiguration.hpp: default values", "src/cplscheme/config/CouplingSchemeConfiguration.cpp: acceleration tags"]}
{"id": "C124", "title": "Actions are configured as written, and Python actions see every sample once", "statement": "An action is accepted exactly if its mesh exists and is used by the participant, its data exist on the mesh, summed data have equal dimensions, and the directory of a Python module exists (the current one if none is given); otherwise there is an error message. Source and target data of Python actions may be left out. When it is performed, the user's Python function is called once for every stored sample in order of time, with that time and the source and target values of that time, and the values it leaves in the arrays are the stored values afterwards. Data with different numbers of samples or times, and exceptions in Python, lead to an error message.", "quantifier": "all action tags that conform to the schema, all meshes and data, all user functions with any state, all samples", "why_tests_cant": "the user function and its state are arbitrary; optional tags multiply the cases, and tests use one sample", "anchors": ["src/action/config/ActionConfiguration.cpp: xmlTagCallback 122-150, xmlEndTagCallback, createAction 152-215", "src/action/PythonAction.cpp: performAction 55-155", "src/precice/config/ParticipantConfiguration.cpp: 641-651"]}
{"id": "C125", "title": "Participants agree on their connections and on the meshes sent over them", "statement": "The communications between participants are accepted exactly if no two participants are connected twice (in whichever direction), two-level initialization is not combined with gather-scatter or a serial participant, ports are valid, and the participants exist; otherwise there is an error message. Then every participant has one connection per partner it has a communication with, and no other; both partners use the same communication and exactly one of them is the requesting side. A mesh is sent once to every participant that receives it, over the communication with this participant, and a received mesh arrives over the communication by which its provider sends it. The provider is asked for connectivity exactly if a mapping or an action of its own or of a receiver needs it.", "quantifier": "all lists of communications and participants, provided and received meshes, numbers of ranks", "why_tests_cant": "the agreement is between all pairs of participants of an arbitrary configuration, each of which reads it on its own; tests use two or three participants", "anchors": ["src/m2n/config/M2NConfiguration.cpp: getM2N 112-121, xmlTagCallback 132-205, isM2NConfigured, checkDuplicates 207-230", "src/precice/config/Configuration.cpp: xmlEndTagCallback 86-125, getBoundM2NsFor 131-168, configurePartitionsFor 170-222"]}
{"id": "C126", "title": "The method of a mapping is the one described by its tag", "statement": "A mapping element is accepted exactly if its attributes and subelements belong to its method, the method implements the constraint, there is one basis function with positive parameters, one executor at most, the clusters have a positive number of vertices and an overlap below one, some axis is not dead, and the build of preCICE contains the backend; otherwise there is an error message. The mapping then has exactly the method, the basis function, the support radius or shape parameter, the polynomial, the dead axes, the clusters, the tolerance and the executor given, and the documented defaults for what is not given. It does not depend on other mappings of the configuration.", "quantifier": "all sequences of mapping elements with all attributes and subelements, all builds", "why_tests_cant": "the settings of all mappings pass through members shared by all of them; tests configure a few combinations of methods, basis functions and executors, and most builds lack most backends", "anchors": ["src/mapping/config/MappingConfiguration.cpp: constructRBF 112-158, tags 210-392, xmlTagCallback 439-565, configureRBFMapping 567-605, createMapping 672-790, xmlEndTagCallback 820-834, finishRBFConfiguration 836-915", "src/mapping/config/MappingConfiguration.hpp: RBFConfiguration, ExecutorConfiguration", "src/mapping/impl/BasisFunctions.hpp: constructors", "src/mapping/RadialBasisFctBaseMapping.hpp: setDeadAxis", "src/mapping/PartitionOfUnityMapping.hpp: constructor"]}
{"id": "C127", "title": "The iterative radial basis function mapping gives what the direct one gives, however the meshes are distributed", "statement": "A radial basis function mapping solved iteratively (rbf-global-iterative) maps the same values as one solved directly (rbf-global-direct) if the linear systems are solved exactly: a consistent mapping reproduces the data at coinciding vertices and affine data if there is a polynomial, a conservative mapping keeps the sum of the loads, and a conservative mapping is the transpose of the consistent one. Dead axes do not matter. The result does not depend on how many ranks there are, which vertices they know and own, and how these are numbered.", "quantifier": "all meshes, basis functions, polynomials and dead axes, all numbers of ranks and distributions of both meshes, all values", "why_tests_cant": "the matrices are assembled from what every rank knows, through the renumbering of the global indices, and solved by a library; tests compare a few small meshes on up to four ranks with a tolerance", "anchors": ["src/mapping/PetRadialBasisFctMapping.hpp: computeMapping 214-520, mapConsistent 560-690, mapConservative 692-820, preallocation and loops 840-980", "src/query/Index.cpp: getVerticesInsideBox 225-238", "src/partition/ReceivedPartition.cpp: prepareBoundingBox 480-540"]}
{"id": "C128", "title": "The executor of a partition-of-unity mapping does not change its result", "statement": "A partition-of-unity mapping with a device executor (cuda, hip, openmp) is accepted whenever it is accepted with the executor cpu, and maps the same values if the arithmetic is exact: the weights of the clusters around an output vertex are positive and sum to one, data is reproduced at coinciding vertices, constant and affine data is reproduced if there is a polynomial, conservative mappings keep the sum of the loads, and meshes that cannot be mapped are an error. The result does not depend on how many threads work on a cluster and how they are scheduled.", "quantifier": "all meshes and cluster centers, basis functions, polynomials, values, team sizes, and interleavings of the threads", "why_tests_cant": "the interleaving of threads is chosen by the device; tests run one schedule, mostly without a device, and compare with a tolerance", "anchors": ["src/mapping/PartitionOfUnityMapping.hpp: computeMapping 195-225, mapConservative 343-355", "src/mapping/BatchedRBFSolver.hpp: constructor and solveConsistent 339-398", "src/mapping/device/KokkosPUMKernels_Impl.hpp: compute_weights 95-175, do_batched_qr, do_batched_lu, do_batched_solve 529-767"]}
{"id": "C129", "title": "Meshes and their data are the ones described by the configuration", "statement": "Every mesh of the configuration exists with its dimensions and exactly the data it uses. The data has the waveform degree of its tag, one component if it is scalar and as many as the mesh has dimensions if it is a vector, and for every component exactly the bounds given. Names find the mesh and data they name, identifiers are unique. Configurations in which names of data or meshes repeat, a mesh uses unknown data or data twice, a degree is negative, or a lower bound is above the upper bound are errors, all others are accepted.", "quantifier": "all sequences of data and mesh tags, all names, degrees, dimensions and bounds including infinities and NaN", "why_tests_cant": "the tags are processed one after the other with shared state, and the number of components is only decided when a mesh uses the data; tests load a few well-formed files", "anchors": ["src/mesh/config/DataConfiguration.cpp: xmlTagCallback 85-158, addData 166-180", "src/mesh/config/MeshConfiguration.cpp: xmlTagCallback 60-91, getMesh 143-152, getDataDimensions 175-185", "src/mesh/Mesh.cpp: createData 173-192"]}
{"id": "C130", "title": "The profile of a participant tells what happened", "statement": "After finalize, the profiling file of a participant contains the beginning and the end of every section: those started with startProfilingSection, the functions of the API, the code below and the time spent in the solver, in the order in which they happened and with their names, exactly those that the configured mode asks for, whatever the setting of flush-every. Sections are properly nested, times never decrease, and after a section has been stopped at most flush-every records are missing from the file. Without profiling no file is written.", "quantifier": "all modes and settings of flush-every and synchronize, serial and parallel participants, all sequences of calls, all nestings of sections, all clocks", "why_tests_cant": "records pass through a queue, a dictionary of names and a file that is opened in the middle of the constructor; which records reach the file depends on the number of records at each flush, tests look at a few settings", "anchors": ["src/profiling/Event.cpp: start 28-49, stop 51-61, addData 63-74", "src/profiling/EventUtils.cpp: initialize 63-85, startBackend 119-173, stopBackend 175-206, put 225-236, flush 287-318, nameToID 319-331", "src/precice/impl/ParticipantImpl.cpp: ParticipantImpl 117-163, initialize 248-300, advance 392-466, finalize 587-637, startProfilingSection 1958-1970", "src/profiling/config/ProfilingConfiguration.cpp: xmlTagCallback 69-89"]}
{"id": "C131", "title": "The C and Fortran bindings behave like the C++ API", "statement": "A solver in C or Fortran gets from every function of the bindings what the function of the C++ API gives: the same effect and the same results for the names and arrays it passes, with arrays of the documented sizes and Fortran names filled up with blanks. An error of the API ends the program; calls without a participant and the creation of a second participant are errors.", "quantifier": "all functions of the bindings, all behaviours of the C++ API, all sequences of calls, all dimensions of meshes and data, all array sizes and names", "why_tests_cant": "the sizes of all arrays are recomputed from dimensions in machine integers and the bindings keep a global participant; tests call each function once or twice with small arrays", "anchors": ["extras/bindings/c/src/preciceC.cpp: createParticipant 28-58, finalize 76-83, getMaxTimeStepSize 127-133, setMeshVertices 194-206, writeData 315-327, writeGradientData 388-401, setMeshAccessRegion 408-416", "extras/bindings/fortran/src/preciceFortran.cpp: create 44-93, setMeshVertices 257-270, strippedLength 422-431"]}
{"id": "C132", "title": "Log messages appear where the configuration says", "statement": "Exactly the messages of preCICE that the filters of the enabled sinks accept are written, each sink to its stream or file in its format and in the order of the messages. By default these are warnings and errors of all ranks and infos of the first rank, on the standard output. Sinks of a previous configuration are gone, files start empty. With enabled=\"false\" on <log> nothing is written; a sink with enabled=\"false\" is not created. A configuration without a meaning is reported.", "quantifier": "all tags <log> and files log.conf with all sinks, filters and formats, all ranks, all sequences of messages, applications with and without own sinks, builds with and without MPI", "why_tests_cant": "the sinks are global state that is replaced twice per participant, and what is written depends on combinations of two kinds of enabled with the default sink of the logging library; tests use a locked configuration of their own", "anchors": ["src/logging/LogConfiguration.cpp: createDefaultFormatter 169-190, createDefaultFilter 192-200, setupLogging 227-319", "src/logging/config/LogConfiguration.cpp: LogConfiguration 8-56, xmlTagCallback 58-73, xmlEndTagCallback 75-82", "src/logging/Logger.cpp: LoggerImpl 110-126", "src/precice/impl/ParticipantImpl.cpp: setParticipant 99, setMPIRank 178"]}
{"id": "C133", "title": "preCICE leaves MPI and PETSc of the application alone", "statement": "preCICE initializes MPI exactly if it has not been initialized when a participant is constructed, and finalizes it, once, exactly if it has initialized it. It never frees a communicator of the application, makes no call that MPI or PETSc forbid, and stops PETSc exactly if it has started it. Each participant works on the communicator given to its constructor, or else on MPI_COMM_WORLD, and the constructor succeeds only if rank and size are those in this communicator. This also holds after constructions that throw, for several participants in a process, and after a configuration has been checked.", "quantifier": "all sequences of constructions, calls and ends of participants, checks of configurations and calls of the application to MPI and PETSc, all communicators, builds with and without assertions", "why_tests_cant": "MPI can be initialized once per process, so tests run inside an environment of the test runner, which the code recognizes and treats differently; who initializes MPI and in which order participants fail or end are properties of whole processes", "anchors": ["src/utils/Parallel.cpp: ~CommState 42-49, current 147-154, pushState 167-177, initializeOrDetectMPI 190-228, finalizeOrCleanupMPI 230-247, initializeTestingMPI 249-259, finalizeTestingMPI 261-268", "src/utils/Petsc.cpp: initialize 39-57, finalize 59-72", "src/precice/impl/ParticipantImpl.cpp: ParticipantImpl 85-163, finalize 587-637", "src/precice/Tooling.cpp: checkConfiguration 32-66"]}
{"id": "C134", "title": "Data survives the reset of a mesh", "statement": "In a coupling in which meshes may be reset, samples made for a mesh that has been replaced are never mapped, sent or read. After every advance() at the end of a time window, reading at the end of this window gives the last value written, mapped between the meshes as they are now. In a repeated window, reading at its start gives the value that the previous window ended with, and reading at the time steps in between gives the values written there, whichever meshes have been reset in the window.", "quantifier": "parallel-explicit and parallel-implicit schemes, with and without substeps, direct access, read and write mappings, all sequences of windows and iterations, all combinations of meshes reset, all sizes and values", "why_tests_cant": "samples live in four places in two processes and are cleared, overwritten, trimmed and mapped by different parts of the code; which of them survive depends on which mesh is reset in which iteration, on the kind of scheme, exchange and mapping; tests of remeshing look at the end of windows", "anchors": ["src/precice/impl/ParticipantImpl.cpp: resetMesh 775-790, advance 392-466, handleDataBeforeAdvance 468-494, handleDataAfterAdvance 496-516, clearStamplesOfChangedMeshes 1912-1922", "src/partition/ReceivedPartition.cpp: compareBoundingBoxes 382-392", "src/mesh/Mesh.cpp: clear 280-292", "src/cplscheme/BaseCouplingScheme.cpp: reinitialize 309-327, sendData and receiveData 112-204", "src/cplscheme/CouplingData.cpp: reinitialize 162-175", "src/precice/impl/DataContext.cpp: mapData 110-171"]}
{"id": "C135", "title": "The ranks of two participants get connected", "statement": "When two parallel participants exchange a mesh with point-to-point communication, all their ranks return from connecting, whatever the order in which they arrive, and afterwards each rank is connected to exactly the ranks of the other participant with which it shares vertices, so that what is sent to a rank arrives at this rank. This holds for sockets, for MPI with a port per rank and for MPI with a single port, also if some ranks have no vertex at the interface.", "quantifier": "all numbers of ranks of both participants, all distributions of vertices, all interleavings", "why_tests_cant": "the order in which ranks publish, connect and accept is up to the system, and tests use a few small distributions in which all ranks have vertices", "anchors": ["src/m2n/PointToPointCommunication.cpp: buildCommunicationMap 261-305, acceptConnection 327-421, requestConnection 454-554", "src/com/MPIPortsCommunication.cpp: acceptConnectionAsServer 105-149, requestConnectionAsClient 189-218", "src/com/SocketCommunication.cpp: acceptConnectionAsServer 141-205, requestConnectionAsClient 267-325", "src/com/MPISinglePortsCommunication.cpp: acceptConnectionAsServer 110-149, requestConnectionAsClient 185-208"]}
{"id": "C136", "title": "The printed reference describes what is accepted", "statement": "A configuration is valid according to the document type definition printed by precice-tools exactly if preCICE accepts its structure: which elements may occur where, how often, and which attributes are known and required, leaving the values of attributes aside. In the printed Markdown reference each tag links to the headings of its subtags.", "quantifier": "all schemas of tags and attributes, all configurations", "why_tests_cant": "tests only check that something is printed; agreement of what is printed with the parser concerns all configurations", "anchors": ["src/xml/Printer.cpp: printDTD 46-60, 130-179, printMD 227-303", "src/precice/Tooling.cpp: printConfigReference", "src/xml/ConfigParser.cpp: connectTags 249-304"]}
