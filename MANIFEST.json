{
 "claims": [
  {
   "property": "C01",
   "status": "proved",
   "theorems": [
    "Verif.C01_subdivision_independent",
    "Verif.C01_truncated_end_not_snapped",
    "Verif.C01_window_end_exact",
    "Verif.C01_window_start_exact"
   ],
   "note": "Start of every window is exactly n*w for all accepted steps; the end is exact for solvers that step exactly onto it. A truncated last window is only hit up to the tolerance otherwise (C01_truncated_end_not_snapped)."
  },
  {
   "property": "C02",
   "status": "proved",
   "theorems": [
    "Verif.C02_no_overshoot",
    "Verif.C02_rejected"
   ],
   "note": ""
  },
  {
   "property": "C03",
   "status": "proved",
   "theorems": [
    "Verif.C03_progress_possible",
    "Verif.C03_tolerated_overshoot_stuck"
   ],
   "note": "For solvers that respect getMaxTimeStepSize() exactly. With tolerated overshoots (accepted by advance) the claim is false: C03_tolerated_overshoot_stuck."
  },
  {
   "property": "C04",
   "status": "proved",
   "theorems": [
    "Verif.C04_no_step_after_end",
    "Verif.C04_termination"
   ],
   "note": ""
  },
  {
   "property": "C05",
   "status": "proved",
   "theorems": [
    "Verif.C05_monotone_or_restore"
   ],
   "note": ""
  },
  {
   "property": "C06",
   "status": "proved",
   "theorems": [
    "Verif.C06_explicit",
    "Verif.C06_implicit",
    "Verif.C06_implicit_limited_partial",
    "Verif.C06_initialize",
    "Verif.C06_late_write_request"
   ],
   "note": "Full rule for steps that hit the window end exactly (C06_implicit). For steps leaving a sub-tolerance remainder the direction \"write request only if ongoing\" fails: C06_late_write_request."
  },
  {
   "property": "C07",
   "status": "proved",
   "theorems": [
    "Verif.C07_checkpoint_is_window_start",
    "Verif.C07_missing_write_request",
    "Verif.C07_read_restores_write"
   ],
   "note": "For steps limited by getMaxTimeStepSize(); C07_missing_write_request shows that tolerated overshoots break it."
  },
  {
   "property": "C08",
   "status": "proved",
   "theorems": [
    "Verif.C08_fulfilled_passes",
    "Verif.C08_unfulfilled_fails"
   ],
   "note": ""
  },
  {
   "property": "C09",
   "status": "proved",
   "theorems": [
    "Verif.C09_max_iterations"
   ],
   "note": "For the participant that measures convergence; its partner follows by C18."
  },
  {
   "property": "C10",
   "status": "proved",
   "theorems": [
    "Verif.C10_min_iterations"
   ],
   "note": "For the participant that measures convergence; its partner follows by C18."
  },
  {
   "property": "C11",
   "status": "proved",
   "theorems": [
    "Verif.Measure.C11_at_max",
    "Verif.Measure.C11_before_max",
    "Verif.Measure.C11_infinite",
    "Verif.Measure.C11_measureConvergence",
    "Verif.Measure.C11_strict_infinite_aborts"
   ],
   "note": "C11_strict_infinite_aborts records a disagreement: strict measure without max-iterations aborts in the first non-converged iteration."
  },
  {
   "property": "C12",
   "status": "proved",
   "theorems": [
    "Verif.C12_explicit",
    "Verif.C12_implicit_measuring",
    "Verif.C12_implicit_receiving"
   ],
   "note": ""
  },
  {
   "property": "C13",
   "status": "proved",
   "theorems": [
    "Verif.C13_window_counter"
   ],
   "note": ""
  },
  {
   "property": "C14",
   "status": "proved",
   "theorems": [
    "Verif.C14_first_method",
    "Verif.C14_serial_explicit",
    "Verif.C14_tolerance_deadlock"
   ],
   "note": "Fixed window size: C14_serial_explicit; first-participant method: C19/C14_first_method. For solvers that hit window ends exactly; C14_tolerance_deadlock shows that hitting them within the tolerance is not enough."
  },
  {
   "property": "C15",
   "status": "proved",
   "theorems": [
    "Verif.C15_serial_implicit"
   ],
   "note": ""
  },
  {
   "property": "C16",
   "status": "proved",
   "theorems": [
    "Verif.C16_parallel"
   ],
   "note": ""
  },
  {
   "property": "C17",
   "status": "proved",
   "theorems": [
    "Verif.C17_direct_exchange_blocks",
    "Verif.C17_multi",
    "Verif.C17_outcome",
    "Verif.C17_star_blocking"
   ],
   "note": "Buffered sends: any topology in which the controller is connected to everybody. Blocking sends: star topologies; direct exchange between non-controllers, which the configuration accepts, deadlocks with blocking sends (C17_direct_exchange_blocks). C17_outcome contains agreement and right-window data."
  },
  {
   "property": "C18",
   "status": "proved",
   "theorems": [
    "Verif.C18_agreement",
    "Verif.C18_verdict"
   ],
   "note": "Serial and parallel schemes with fixed window size; multi coupling in C17, first-participant method in C19."
  },
  {
   "property": "C19",
   "status": "proved",
   "theorems": [
    "Verif.C19_follows"
   ],
   "note": "The second participant follows the windows of the first one; both programs complete for first-participant solvers with any step sizes."
  },
  {
   "property": "C20",
   "status": "proved",
   "theorems": [
    "Verif.Comp.C20_explicit_count",
    "Verif.Comp.C20_explicit_exchange_once_per_window",
    "Verif.Comp.C20_explicit_on_hold",
    "Verif.Comp.C20_misaligned_sends_twice",
    "Verif.Comp.C20_tolerated_overshoot_skips_exchange"
   ],
   "note": "Common window size, steps that hit window ends exactly, any number of explicit serial/parallel members with distinct partners, any implicit scheme. C20_tolerated_overshoot_skips_exchange and C20_misaligned_sends_twice show that both hypotheses are needed. Not covered: explicit window an integer multiple >1 of the implicit one."
  },
  {
   "property": "C21",
   "status": "proved",
   "theorems": [
    "Verif.Comp.C21_accepted_step_fits_all",
    "Verif.Comp.C21_common_time",
    "Verif.Comp.C21_max_step_min",
    "Verif.Comp.C21_ongoing_iff",
    "Verif.Comp.C21_uneven_end_stuck"
   ],
   "note": "Step bound and acceptance for all compositions; common time and end condition for members with equal window size, max-time and max-time-windows; C21_uneven_end_stuck shows what happens otherwise."
  },
  {
   "property": "C22",
   "status": "proved",
   "theorems": [
    "Verif.C22_first_method",
    "Verif.C22_initial_data",
    "Verif.C22_right_window"
   ],
   "note": ""
  },
  {
   "property": "C23",
   "status": "proved",
   "theorems": [
    "Verif.Waveform.C23_overwrite",
    "Verif.Waveform.C23_times_increasing",
    "Verif.Waveform.C23_write"
   ],
   "note": "Any sequence of storage operations (write, trim, move, clear, assign, reads) that respects the assertions."
  },
  {
   "property": "C24",
   "status": "proved",
   "theorems": [
    "Verif.Waveform.C24_interpolant",
    "Verif.Waveform.C24_read_stored"
   ],
   "note": ""
  },
  {
   "property": "C25",
   "status": "proved",
   "theorems": [
    "Verif.Waveform.C25_degree_zero",
    "Verif.Waveform.C25_single_sample"
   ],
   "note": ""
  },
  {
   "property": "C26",
   "status": "proved",
   "theorems": [
    "Verif.Waveform.C26_linear"
   ],
   "note": ""
  },
  {
   "property": "C27",
   "status": "proved",
   "theorems": [
    "Verif.Waveform.C27_constant"
   ],
   "note": "All degrees, all time grids, any solver that solves solvable systems. The interpolation problem is proved to have exactly one solution (Schoenberg-Whitney for averaged knots: Waveform/Zeros, Waveform/Interpolation). Histories without changes of values in place after a read; those leave an outdated interpolant (C30)."
  },
  {
   "property": "C28",
   "status": "proved",
   "theorems": [
    "Verif.Waveform.C28_continuous",
    "Verif.Waveform.C28_start_of_next_window"
   ],
   "note": "On the level of the sample storage; one degree of freedom."
  },
  {
   "property": "C29",
   "status": "proved",
   "theorems": [
    "Verif.Waveform.C29_received_start_kept",
    "Verif.Waveform.C29_written_trimmed"
   ],
   "note": ""
  },
  {
   "property": "C30",
   "status": "partial",
   "theorems": [
    "Verif.Accel.C30_inPlace_stale",
    "Verif.Waveform.C30_reads_from_current_samples_partial",
    "Verif.Waveform.C30_setAll_stale"
   ],
   "note": "Reads never use an outdated interpolant for histories of stores, trims, moves and clears. Two operations of the code do leave an outdated interpolant behind: replacing all samples, and changing samples in place (relaxation, actions); both are proved as counterexamples (C30_..._stale)."
  },
  {
   "property": "C31",
   "status": "proved",
   "theorems": [
    "Verif.Api.Participant.C31_accepts",
    "Verif.Api.Participant.C31_rejects",
    "Verif.Api.Participant.C31_successful"
   ],
   "note": "Single process; for every state of the participant and every waveform."
  },
  {
   "property": "C32",
   "status": "partial",
   "theorems": [
    "Verif.Api.Participant.C32_direct",
    "Verif.Api.Participant.C32_direct_lost",
    "Verif.Api.Participant.C32_duplicates",
    "Verif.Api.Participant.C32_initial",
    "Verif.Api.Participant.C32_order",
    "Verif.Api.Participant.C32_sent_partial",
    "Verif.Api.Participant.C32_stale_after_reset"
   ],
   "note": "C32_initial covers initialize() completely. C32_sent_partial covers advance() except for never-written vertices of a mesh that was reset in the same step: there values written before the reset reappear (C32_stale_after_reset). Values written by direct access to a received mesh are lost if the mesh is reinitialized in the same step (C32_direct_lost), otherwise C32_direct applies."
  },
  {
   "property": "C33",
   "status": "proved",
   "theorems": [
    "Verif.Api.Participant.C33_round_trip"
   ],
   "note": ""
  },
  {
   "property": "C34",
   "status": "proved",
   "theorems": [
    "Verif.Api.Participant.C34_ids",
    "Verif.Api.Participant.C34_one_by_one",
    "Verif.Api.Participant.C34_size"
   ],
   "note": ""
  },
  {
   "property": "C35",
   "status": "proved",
   "theorems": [
    "Verif.Api.Participant.C35_locked",
    "Verif.Api.Participant.C35_relocked",
    "Verif.Api.Participant.C35_reset",
    "Verif.Api.Participant.C35_unlocked"
   ],
   "note": ""
  },
  {
   "property": "C36",
   "status": "partial",
   "theorems": [
    "Verif.Api.Participant.C36_accepts",
    "Verif.Api.Participant.C36_advance",
    "Verif.Api.Participant.C36_advance_first",
    "Verif.Api.Participant.C36_error_advances_time",
    "Verif.Api.Participant.C36_mesh_after_finalize",
    "Verif.Api.Participant.C36_no_ub_partial",
    "Verif.Api.Participant.C36_order",
    "Verif.Api.Participant.C36_ub_reachable"
   ],
   "note": "Order of successful calls for all runs. Not true in the code: advance() before initialize() or after finalize() and mesh functions after finalize() dereference null pointers (C36_advance_first, C36_mesh_after_finalize, C36_ub_reachable); C36_no_ub_partial shows that there are no other cases."
  },
  {
   "property": "C37",
   "status": "proved",
   "theorems": [
    "Verif.Api.Participant.C37_connectivity",
    "Verif.Api.Participant.C37_data",
    "Verif.Api.Participant.C37_quads_not_atomic"
   ],
   "note": "Connectivity calls on meshes that do not need connectivity are ignored. setMeshQuads with a non-convex quad in the middle is not atomic (C37_quads_not_atomic), this is not about unknown ids."
  },
  {
   "property": "C38",
   "status": "proved",
   "theorems": [
    "Verif.Mesh.C38_coincident_vertices_lose_elements",
    "Verif.Mesh.C38_complete",
    "Verif.Mesh.C38_no_duplicates",
    "Verif.Mesh.C38_nothing_extra",
    "Verif.Mesh.C38_nothing_lost"
   ],
   "note": "Elements over distinct, existing vertices. Elements are compared by coordinates, so with coincident vertices given elements are lost: C38_coincident_vertices_lose_elements."
  },
  {
   "property": "C39",
   "status": "proved",
   "theorems": [
    "Verif.Box.C39_computed_box_contains",
    "Verif.Box.C39_computed_box_keeps",
    "Verif.Box.C39_computed_box_least",
    "Verif.Box.C39_contains",
    "Verif.Box.C39_expand",
    "Verif.Box.C39_join",
    "Verif.Box.C39_scale"
   ],
   "note": ""
  },
  {
   "property": "C40",
   "status": "proved",
   "theorems": [
    "Verif.Box.C40_default_box",
    "Verif.Box.C40_default_boxes_overlap",
    "Verif.Box.C40_overlap_iff",
    "Verif.Box.C40_symm"
   ],
   "note": "For boxes that are not the default (empty) box; two default boxes are reported as overlapping (C40_default_boxes_overlap)."
  },
  {
   "property": "C41",
   "status": "proved",
   "theorems": [
    "Verif.Mesh.C41_filter"
   ],
   "note": ""
  },
  {
   "property": "C42",
   "status": "proved",
   "theorems": [
    "Verif.Mesh.C42_addMesh",
    "Verif.Mesh.C42_ok"
   ],
   "note": ""
  },
  {
   "property": "C43",
   "status": "proved",
   "theorems": [
    "Verif.Mapping.C43_nearest",
    "Verif.Mapping.C43_range"
   ],
   "note": "For every answer of the vertex search that is a nearest vertex (the R-tree itself is an oracle with that specification)."
  },
  {
   "property": "C44",
   "status": "proved",
   "theorems": [
    "Verif.Mapping.C44_sum"
   ],
   "note": ""
  },
  {
   "property": "C45",
   "status": "proved",
   "theorems": [
    "Verif.Mapping.C45_nn",
    "Verif.Mapping.C45_projection"
   ],
   "note": ""
  },
  {
   "property": "C46",
   "status": "proved",
   "theorems": [
    "Verif.Mapping.C46_constants",
    "Verif.Mapping.C46_dropped",
    "Verif.Mapping.C46_totals",
    "Verif.Mapping.C46_weights"
   ],
   "note": "Exact sum of the weights; the effect of dropping weights below 1e-14 is bounded in C46_constants and C46_totals and shown to be real in C46_dropped."
  },
  {
   "property": "C47",
   "status": "proved",
   "theorems": [
    "Verif.Mapping.C47_affine",
    "Verif.Mapping.C47_exist",
    "Verif.Mapping.C47_full_dimensional"
   ],
   "note": ""
  },
  {
   "property": "C48",
   "status": "proved",
   "theorems": [
    "Verif.Mapping.C48_range"
   ],
   "note": ""
  },
  {
   "property": "C49",
   "status": "proved",
   "theorems": [
    "Verif.Mapping.C49_cell",
    "Verif.Mapping.C49_global_2d",
    "Verif.Mapping.C49_minimal",
    "Verif.Mapping.C49_vertex"
   ],
   "note": "Candidate sets of the tree search are arbitrary non-empty lists; the statement is about the choice among them. In 3D the choice is not globally closest: triangles are preferred over closer edges and only four candidates are considered."
  },
  {
   "property": "C50",
   "status": "proved",
   "theorems": [
    "Verif.Mapping.C50_empty",
    "Verif.Mapping.C50_error",
    "Verif.Mapping.C50_integral",
    "Verif.Mapping.C50_zero"
   ],
   "note": "Integral of the piecewise linear interpolant (measure times mean of the corners); data over the reals."
  },
  {
   "property": "C51",
   "status": "partial",
   "theorems": [
    "Verif.Mapping.C51_affine",
    "Verif.Mapping.C51_by_component",
    "Verif.Mapping.C51_documented_scalar_partial",
    "Verif.Mapping.C51_documented_symmetric_partial",
    "Verif.Mapping.C51_documented_vector",
    "Verif.Mapping.Rotation.C51_documented_order_differs"
   ],
   "note": "Gradients written component by component (x dx, x dy, y dx, y dy) reproduce every affine field (C51_by_component, C51_affine). In the documented order this holds for scalar data and for vector data with a symmetric matrix of derivatives. For other vector data it is false: the mapping takes the derivatives of all components in direction k for the gradient of component k (C51_documented_vector), and C51_documented_order_differs shows a rotation whose sign is reversed."
  },
  {
   "property": "C52",
   "status": "proved",
   "theorems": [
    "Verif.Mapping.C52_nn",
    "Verif.Mapping.C52_projection",
    "Verif.Mapping.C52_skip",
    "Verif.Mapping.C52_zero"
   ],
   "note": "Linearity exact; the shortcut for samples of norm below 1e-14 changes results by at most the gain of the mapping times 1e-14 (C52_skip)."
  },
  {
   "property": "C53",
   "status": "proved",
   "theorems": [
    "Verif.Mapping.C53_complete",
    "Verif.Mapping.C53_exactly",
    "Verif.Mapping.C53_succeeds"
   ],
   "note": "One degree of freedom per sample."
  },
  {
   "property": "C54",
   "status": "proved",
   "theorems": [
    "Verif.Mapping.C54_invalidate",
    "Verif.Mapping.C54_read",
    "Verif.Mapping.C54_reads",
    "Verif.Mapping.C54_repeat",
    "Verif.Mapping.C54_write",
    "Verif.Mapping.C54_write_twice"
   ],
   "note": "Nearest-neighbor just-in-time mapping; times in comparison with the cached time up to 1e-14."
  },
  {
   "property": "C55",
   "status": "partial",
   "theorems": [
    "Verif.Multiscale.C55_average",
    "Verif.Multiscale.C55_collect_wrong",
    "Verif.Multiscale.C55_constant",
    "Verif.Multiscale.C55_nearest_partial",
    "Verif.Multiscale.C55_out_of_bounds",
    "Verif.Multiscale.C55_spread",
    "Verif.Multiscale.C55_spread_wrong"
   ],
   "note": "Holds only if the 1D vertices are defined in ascending order (C55_nearest_partial). Otherwise the code reads out of bounds (C55_out_of_bounds) or uses the wrong vertex (C55_spread_wrong, C55_collect_wrong); only the first component of vector data is mapped (C55_spread)."
  },
  {
   "property": "C56",
   "status": "proved",
   "theorems": [
    "Verif.Multiscale.C56_accepts",
    "Verif.Multiscale.C56_circle_mean",
    "Verif.Multiscale.C56_closest",
    "Verif.Multiscale.C56_constant",
    "Verif.Multiscale.C56_line_mean",
    "Verif.Multiscale.C56_mean",
    "Verif.Multiscale.C56_parabolic_circle",
    "Verif.Multiscale.C56_roundtrip",
    "Verif.Multiscale.C56_roundtrip_2d",
    "Verif.Multiscale.C56_square",
    "Verif.Multiscale.C56_square_2d_undefined"
   ],
   "note": "The combination 2D, parabolic, square is undefined (C56_square_2d_undefined). Only uniform profile for 2D-3D."
  },
  {
   "property": "C57",
   "status": "proved",
   "theorems": [
    "Verif.Dist.C57_global_ids"
   ],
   "note": "A mesh without any vertex on any rank fails the assertion of the code; the theorem is for at least one vertex."
  },
  {
   "property": "C58",
   "status": "proved",
   "theorems": [
    "Verif.Dist.C58_none",
    "Verif.Dist.C58_one_owner",
    "Verif.Dist.C58_unique_rank"
   ],
   "note": "At least one vertex is needed by some rank, otherwise the code stops with an error (C58_none)."
  },
  {
   "property": "C59",
   "status": "partial",
   "theorems": [
    "Verif.Dist.C59_no_filter_two_owners",
    "Verif.Dist.C59_one_owner_partial",
    "Verif.Dist.C59_some_owner",
    "Verif.Dist.C59_unsorted_two_owners"
   ],
   "note": "Proved for meshes filtered by the bounding boxes of the ranks (default) and ascending global ids on each rank. With the option no-filter the claim is false: C59_no_filter_two_owners. At least one owner holds without conditions (C59_some_owner)."
  },
  {
   "property": "C60",
   "status": "proved",
   "theorems": [
    "Verif.Dist.C60_gather_scatter",
    "Verif.Dist.C60_partition",
    "Verif.Dist.C60_wrong_size"
   ],
   "note": "Blocking sends, any numbers of ranks, any distributions with shared vertices; wrong buffer sizes fail (C60_wrong_size)."
  },
  {
   "property": "C61",
   "status": "partial",
   "theorems": [
    "Verif.Dist.C61_same_partial"
   ],
   "note": "Proved for every rank with at least one partner and ascending distributions. Missing: a rank without any partner keeps the content of its buffer instead of receiving zeros; C62_negation is a concrete case where both transports differ."
  },
  {
   "property": "C62",
   "status": "partial",
   "theorems": [
    "Verif.Dist.C62_gather_scatter",
    "Verif.Dist.C62_negation",
    "Verif.Dist.C62_p2p_untouched",
    "Verif.Dist.C62_zero_partial"
   ],
   "note": "Gather-scatter: proved. Point-to-point: proved for ranks with at least one partner (C62_zero_partial); false for ranks without a partner (C62_p2p_untouched, C62_negation), because receive returns early and the buffer is freshly allocated uninitialised memory."
  },
  {
   "property": "C63",
   "status": "proved",
   "theorems": [
    "Verif.Dist.C63_allreduce",
    "Verif.Dist.C63_broadcast",
    "Verif.Dist.C63_reduce"
   ],
   "note": "Exact arithmetic in any commutative monoid."
  },
  {
   "property": "C64",
   "status": "proved",
   "theorems": [
    "Verif.Dist.C64_dot",
    "Verif.Dist.C64_norm",
    "Verif.Dist.C64_partition",
    "Verif.Dist.C64_verdict"
   ],
   "note": "Exact arithmetic over the reals."
  },
  {
   "property": "C65",
   "status": "partial",
   "theorems": [
    "Verif.Com.C65_gradient_buffer_too_large",
    "Verif.Com.C65_gradient_gather_fails",
    "Verif.Com.C65_gradients_gather_scatter",
    "Verif.Com.C65_gradients_p2p",
    "Verif.Com.C65_lossless",
    "Verif.Com.C65_parallel_p2p",
    "Verif.Com.C65_parallel_partial"
   ],
   "note": "C65_lossless: serialising, sending and deserialising over one connection reproduces times, values and gradients, for every waveform and any number of samples. Distributed, whatever the partitionings: values over gather-scatter (C65_parallel_partial) and point-to-point (C65_parallel_p2p), gradients over point-to-point (C65_gradients_p2p) and gradients of scalar data over gather-scatter (C65_gradients_gather_scatter). Missing because it is false: gradients of vector data over gather-scatter; the gradient buffer of vector data is over-allocated (C65_gradient_buffer_too_large), so that gathering it fails the size assertion (C65_gradient_gather_fails). Ranks without partner over point-to-point: C62."
  },
  {
   "property": "C66",
   "status": "proved",
   "theorems": [
    "Verif.Com.C66_append",
    "Verif.Com.C66_lossless"
   ],
   "note": "C66_lossless: for every valid mesh the received mesh has the same vertices, owners, global ids, tags and elements; C66_append: receiving appends to what the mesh already contains, with shifted ids."
  },
  {
   "property": "C67",
   "status": "partial",
   "theorems": [
    "Verif.Com.C67_box",
    "Verif.Com.C67_box_map",
    "Verif.Com.C67_connections_partial",
    "Verif.Com.C67_empty_connections_rejected"
   ],
   "note": "Bounding boxes and maps of them are lossless (C67_box, C67_box_map); connection maps are lossless if not empty (C67_connections_partial). An empty connection map is rejected by an assertion (C67_empty_connections_rejected); the callers never send one."
  },
  {
   "property": "C68",
   "status": "proved",
   "theorems": [
    "Verif.Com.Info.C68_atomic",
    "Verif.Com.Info.C68_leftover",
    "Verif.Com.Info.C68_reader_succeeds",
    "Verif.Com.Info.C68_writer_publishes"
   ],
   "note": "For every interleaving of writer and readers: a reader never sees a partially written file (C68_atomic), can always read once the writer has published (C68_reader_succeeds), and the writer publishes unless a file is left from a previous run (C68_writer_publishes); C68_leftover shows that a left file is read as if it were current."
  },
  {
   "property": "C69",
   "status": "proved",
   "theorems": [
    "Verif.Com.Queue.C69_drains",
    "Verif.Com.Queue.C69_none_lost",
    "Verif.Com.Queue.C69_order"
   ],
   "note": "For every interleaving of requests and completions: what is written to the socket is the order of the requests (C69_order), nothing is lost or duplicated (C69_none_lost) and the queue drains (C69_drains). Write errors are not modelled."
  },
  {
   "property": "C70",
   "status": "proved",
   "theorems": [
    "Verif.Com.Ring.C70_ring",
    "Verif.Com.Ring.C70_same_order_deadlocks",
    "Verif.Com.Ring.C70_single"
   ],
   "note": "C70_ring: for any number of ranks greater than one every schedule completes and connects every rank to its neighbours, with accept and request as a blocking meeting; C70_single: one rank; C70_same_order_deadlocks: without the alternating order it would deadlock."
  },
  {
   "property": "C71",
   "status": "proved",
   "theorems": [
    "Verif.Accel.C71_convex",
    "Verif.Accel.C71_rejects",
    "Verif.Accel.C71_relaxed",
    "Verif.Accel.C71_same_grid",
    "Verif.Accel.C71_succeeds"
   ],
   "note": "For all waveforms, grids and factors: result is the convex combination at every stored time after the window start, the sample at the window start is untouched, equal values stay."
  },
  {
   "property": "C72",
   "status": "proved",
   "theorems": [
    "Verif.Accel.C72_affine",
    "Verif.Accel.C72_affine_defined",
    "Verif.Accel.C72_converged",
    "Verif.Accel.C72_start",
    "Verif.Accel.C72_undefined_iff",
    "Verif.Accel.C72_zero_factor",
    "Verif.Accel.C72_zero_factor_stays"
   ],
   "note": "Aitken factor for all residuals; the first factor of a window, exactness for affine maps after two relaxations, undefined exactly if the two residuals agree. Also proved: a factor of zero can never be left."
  },
  {
   "property": "C73",
   "status": "proved",
   "theorems": [
    "Verif.Accel.C73_backup_unused",
    "Verif.Accel.C73_counts",
    "Verif.Accel.C73_dependent_column",
    "Verif.Accel.C73_qr3_undefined",
    "Verif.Accel.C73_update"
   ],
   "note": "Model Accel/QN.lean of updateDifferenceMatrices, applyFilter, removeMatrixColumn, iterationsConverged over all histories (`QN.Reachable`); steps that violate an assertion have no successor. C73_counts and C73_update are the claim. C73_backup_unused: the restoration of the backup for time-windows-reused 0 never happens. C73_qr3_undefined and C73_dependent_column are histories in which the code reads before an array or violates an assertion."
  },
  {
   "property": "C74",
   "status": "partial",
   "theorems": [
    "Verif.Accel.C74_latest_kept",
    "Verif.Accel.C74_oldest_partial",
    "Verif.Accel.C74_windows_partial",
    "Verif.Accel.C74_wrong_window"
   ],
   "note": "C74_windows_partial and C74_oldest_partial: for all histories in which the filter keeps a column of the current window; C74_latest_kept: this is so with no filter, QR2 and QR3 unless a difference is numerically zero. C74_wrong_window: with QR1 the claim fails: columns of two earlier windows are kept although one is configured."
  },
  {
   "property": "C75",
   "status": "partial",
   "theorems": [
    "Verif.Accel.C75_absolute_deletes_all",
    "Verif.Accel.C75_diagonal",
    "Verif.Accel.C75_exact",
    "Verif.Accel.C75_exact_partial",
    "Verif.Accel.C75_history",
    "Verif.Accel.C75_latest_kept",
    "Verif.Accel.C75_qr1",
    "Verif.Accel.C75_qr1_done",
    "Verif.Accel.C75_rebuilt",
    "Verif.Accel.C75_reset",
    "Verif.Accel.C75_resetFilter",
    "Verif.Accel.C75_reset_mismatch"
   ],
   "note": "C75_exact: proved for the filters QR2 and QR3 for all histories; C75_exact_partial: without filter and with QR1 as long as no column has been refused. C75_reset_mismatch: without filter the claim fails when a new factorisation refuses two columns (ascending removal). C75_resetFilter, C75_reset, C75_qr1, C75_qr1_done, C75_latest_kept characterise the filters; C75_absolute_deletes_all: QR1-absolute may delete everything."
  },
  {
   "property": "C76",
   "status": "partial",
   "theorems": [
    "Verif.Accel.C76_clamp_partial",
    "Verif.Accel.C76_discard_partial",
    "Verif.Accel.C76_scale_needs_output",
    "Verif.Accel.C76_scale_partial",
    "Verif.Accel.C76_substeps",
    "Verif.Accel.C76_substeps_wrong_data",
    "Verif.Accel.C76_untouched_partial"
   ],
   "note": "Proved for one time step per window (C76_*_partial). With several time steps the claim is false: C76_substeps and C76_substeps_wrong_data are concrete counterexamples; C76_scale_needs_output shows that scale-to-bound needs solver output within the bounds."
  },
  {
   "property": "C77",
   "status": "proved",
   "theorems": [
    "Verif.Accel.C77_request",
    "Verif.Accel.C77_reversible",
    "Verif.Accel.C77_zero_factor"
   ],
   "note": "All four preconditioner types, all histories, vectors and matrices of every size. Constant factors have to be non-zero, which the configuration does not check (C77_zero_factor)."
  },
  {
   "property": "C78",
   "status": "proved",
   "theorems": [
    "Verif.Accel.C78_frozen",
    "Verif.Accel.C78_not_before"
   ],
   "note": "All four types and all histories."
  },
  {
   "property": "C79",
   "status": "proved",
   "theorems": [
    "Verif.Accel.C79_delete",
    "Verif.Accel.C79_history",
    "Verif.Accel.C79_insert",
    "Verif.Accel.C79_insert_fails_iff",
    "Verif.Accel.C79_rest"
   ],
   "note": "Over the real numbers (no rounding), global rows. Any history of insertions and deletions; exact condition under which a column is rejected."
  },
  {
   "property": "C80",
   "status": "proved",
   "theorems": [
    "Verif.Measure.C80_abs_or_rel",
    "Verif.Measure.C80_absolute",
    "Verif.Measure.C80_identical",
    "Verif.Measure.C80_relative",
    "Verif.Measure.C80_relative_scaling",
    "Verif.Measure.C80_residual_first",
    "Verif.Measure.C80_residual_never_if_first_zero",
    "Verif.Measure.C80_residual_scaling",
    "Verif.Measure.C80_residual_series"
   ],
   "note": "C80_residual_never_if_first_zero records a surprising consequence of the strict comparison."
  },
  {
   "property": "C81",
   "status": "proved",
   "theorems": [
    "Verif.WatchPoint.C81_no_vertices_undefined",
    "Verif.WatchPoint.C81_one_rank",
    "Verif.WatchPoint.C81_written_partial"
   ],
   "note": "C81_written_partial needs a rank with vertices; C81_no_vertices_undefined shows that without any vertex the selected rank dereferences a null pointer."
  },
  {
   "property": "C82",
   "status": "partial",
   "theorems": [
    "Verif.WatchIntegral.C82_area",
    "Verif.WatchIntegral.C82_area_column_missing",
    "Verif.WatchIntegral.C82_independent_partial",
    "Verif.WatchIntegral.C82_mixed",
    "Verif.WatchIntegral.C82_scaled_partial",
    "Verif.WatchIntegral.C82_unscaled"
   ],
   "note": "C82_scaled_partial and C82_independent_partial need every rank with vertices to have edges; C82_mixed shows the claim is false otherwise (unscaled values are added). C82_unscaled and C82_area cover the other outputs; C82_area_column_missing: no column if the primary rank has no edges."
  },
  {
   "property": "C83",
   "status": "partial",
   "theorems": [
    "Verif.Summation.C83_fewer_undefined",
    "Verif.Summation.C83_mismatch_rejected",
    "Verif.Summation.C83_more_ignored",
    "Verif.Summation.C83_read",
    "Verif.Summation.C83_sum"
   ],
   "note": "C83_sum, C83_read, C83_mismatch_rejected are unconditional apart from a target whose stored times are a prefix of the source times. Rejection is incomplete: C83_fewer_undefined (out of range access) and C83_more_ignored (surplus samples silently ignored)."
  },
  {
   "property": "C84",
   "status": "proved",
   "theorems": [
    "Verif.ScaleByArea.C84_connectivity_required",
    "Verif.ScaleByArea.C84_integral",
    "Verif.ScaleByArea.C84_inverse",
    "Verif.ScaleByArea.C84_isolated_vertex",
    "Verif.ScaleByArea.C84_partition_dependent",
    "Verif.ScaleByArea.C84_total"
   ],
   "note": "Inverse, total area and integral for all meshes. C84_isolated_vertex: division by zero is not prevented; C84_partition_dependent: in parallel each rank only knows its own elements."
  },
  {
   "property": "C85",
   "status": "proved",
   "theorems": [
    "Verif.MultiLock.C85_all",
    "Verif.MultiLock.C85_counts",
    "Verif.MultiLock.C85_refines",
    "Verif.MultiLock.C85_unknown"
   ],
   "note": ""
  },
  {
   "property": "C86",
   "status": "proved",
   "theorems": [
    "Verif.UniqueIds.C86_consecutive",
    "Verif.UniqueIds.C86_distinct",
    "Verif.UniqueIds.C86_fresh",
    "Verif.UniqueIds.C86_total"
   ],
   "note": "All histories of requests, reservations and resets; the search for a free id terminates."
  },
  {
   "property": "C87",
   "status": "proved",
   "theorems": [
    "Verif.Edit.C87_data_hint_partial",
    "Verif.Edit.C87_minimal",
    "Verif.Edit.C87_no_data_undefined",
    "Verif.Edit.C87_symm",
    "Verif.Edit.C87_tag_hint",
    "Verif.Edit.C87_triangle",
    "Verif.Edit.C87_zero_iff"
   ],
   "note": "The matrix algorithm computes the least number of edits; hints are characterised too. C87_no_data_undefined: the hint for data of a mesh without data reads the front of an empty vector."
  },
  {
   "property": "C88",
   "status": "partial",
   "theorems": [
    "Verif.Geometry.C88_area2",
    "Verif.Geometry.C88_area3",
    "Verif.Geometry.C88_edge",
    "Verif.Geometry.C88_line_partial",
    "Verif.Geometry.C88_line_wrong",
    "Verif.Geometry.C88_normal_zero",
    "Verif.Geometry.C88_plane",
    "Verif.Geometry.C88_plane_found",
    "Verif.Geometry.C88_volume"
   ],
   "note": "Lengths, areas, volumes and plane intersections proved. lineIntersection is right only if one summand of its denominator vanishes (C88_line_partial, C88_line_wrong) and computeNormal returns the zero vector for every triangle (C88_normal_zero)."
  },
  {
   "property": "C89",
   "status": "proved",
   "theorems": [
    "Verif.Handshake.C89_agreement"
   ],
   "note": "Version strings without the separator character; both sides check what they receive before they go on."
  },
  {
   "property": "C90",
   "status": "proved",
   "theorems": [
    "Verif.Handshake.C90_agreement",
    "Verif.Handshake.C90_chain_disagrees",
    "Verif.Handshake.C90_completes"
   ],
   "note": "Proved for pairwise connected participants; in a chain of three the outer participants can disagree (C90_chain_disagrees). Absence of deadlock proved for every connection graph."
  },
  {
   "property": "C91",
   "status": "proved",
   "theorems": [
    "Verif.Quad.C91_collinear_corners_accepted",
    "Verif.Quad.C91_no_ub",
    "Verif.Quad.C91_split"
   ],
   "note": "For quads whose first three corners are not collinear (the exact condition under which the code finds the hull); C91_collinear_corners_accepted shows the other case."
  },
  {
   "property": "C92",
   "status": "proved",
   "theorems": [
    "Verif.Accel.C92_complete",
    "Verif.Accel.C92_enough_columns",
    "Verif.Accel.C92_fixed_point",
    "Verif.Accel.C92_least_squares",
    "Verif.Accel.C92_residual_in_span"
   ],
   "note": "C92_least_squares for any factorisation of independent columns; C92_fixed_point and C92_enough_columns for all histories of affine problems with the filters QR2 and QR3, non-zero weights. The back substitution is the loop of backSubstitution; exact real arithmetic."
  },
  {
   "property": "C93",
   "status": "partial",
   "theorems": [
    "Verif.Accel.C93_chunks_bounded",
    "Verif.Accel.C93_exact_jacobian_partial",
    "Verif.Accel.C93_first_window",
    "Verif.Accel.C93_fixed_point_partial",
    "Verif.Accel.C93_idle",
    "Verif.Accel.C93_improves_partial",
    "Verif.Accel.C93_kept",
    "Verif.Accel.C93_least_change",
    "Verif.Accel.C93_leftover",
    "Verif.Accel.C93_never_worse",
    "Verif.Accel.C93_restart_zero",
    "Verif.Accel.C93_slide",
    "Verif.Accel.C93_span",
    "Verif.Accel.C93_stored_always",
    "Verif.Accel.C93_stored_partial",
    "Verif.Accel.C93_stored_restart_partial",
    "Verif.Accel.C93_unique",
    "Verif.Accel.C93_update_partial"
   ],
   "note": "Real arithmetic, serial matrix products, filters QR2/QR3. C93_update_partial, C93_stored_partial, C93_stored_restart_partial and the affine corollaries exclude one state: the first iteration of a later window without reused windows and without enforced initial relaxation (both defaults). There the claim is false: C93_leftover shows, in efficient and restart mode, that the contribution of the previous window is counted twice. C93_slide: RS-SLIDE forgets everything but the last window. C93_first_window: with filter QR3 a first window that converges at once runs the filter on an empty factorisation. RS-SVD and RS-LS are an arbitrary replacement of the stored factors here; see C102 and C103 for them."
  },
  {
   "property": "C94",
   "status": "proved",
   "theorems": [
    "Verif.MatOps.C94_block",
    "Verif.MatOps.C94_cyclic",
    "Verif.MatOps.C94_everywhere",
    "Verif.MatOps.C94_offsets",
    "Verif.MatOps.C94_serial"
   ],
   "note": "Entries in any commutative ring (no rounding). The ring is proved with sends that do not block, as the code posts them; reduction and distribution also with blocking sends. The dot product variant is not modelled, since no caller selects it."
  },
  {
   "property": "C95",
   "status": "proved",
   "theorems": [
    "Verif.Rbf.C95_adjoint",
    "Verif.Rbf.C95_affine_integrated",
    "Verif.Rbf.C95_affine_separated",
    "Verif.Rbf.C95_axes_terminate",
    "Verif.Rbf.C95_conservative_integrated",
    "Verif.Rbf.C95_conservative_separated",
    "Verif.Rbf.C95_constant_separated",
    "Verif.Rbf.C95_duplicate_error",
    "Verif.Rbf.C95_interpolates",
    "Verif.Rbf.C95_numbering",
    "Verif.Rbf.C95_pointwise",
    "Verif.Rbf.C95_single_vertex"
   ],
   "note": "Real arithmetic; the dense decomposition is modelled as an exact inverse (constructor fails when the matrix is singular / not positive definite), the column-pivoted QR of the polynomial as an arbitrary valid choice of pivot columns. With a separated polynomial and fewer vertices than coefficients the code does not reproduce constants: C95_single_vertex."
  },
  {
   "property": "C96",
   "status": "proved",
   "theorems": [
    "Verif.Rbf.C96_conservative",
    "Verif.Rbf.C96_consistent",
    "Verif.Rbf.C96_gap",
    "Verif.Rbf.C96_unowned"
   ],
   "note": "Real arithmetic; the condition number is assumed not to depend on the order of the rows, and a separated polynomial needs at least as many vertices as coefficients. Vertices without owner make the code access memory out of bounds: C96_unowned in general, C96_gap for a mesh with a gap wider than the support radius."
  },
  {
   "property": "C97",
   "status": "partial",
   "theorems": [
    "Verif.Pum.C97_adjoint",
    "Verif.Pum.C97_affine",
    "Verif.Pum.C97_computes",
    "Verif.Pum.C97_conserves",
    "Verif.Pum.C97_constant",
    "Verif.Pum.C97_edge",
    "Verif.Pum.C97_interpolates",
    "Verif.Pum.C97_local",
    "Verif.Pum.C97_read_as_mesh",
    "Verif.Pum.C97_read_at",
    "Verif.Pum.C97_uncovered",
    "Verif.Pum.C97_unity",
    "Verif.Pum.C97_value",
    "Verif.Pum.C97_write_at_partial",
    "Verif.Pum.C97_write_error",
    "Verif.Pum.C97_write_lost"
   ],
   "note": "Real arithmetic, the CPU variant, one component; cluster candidates and radius are arguments. Two parts of the statement are false: C97_edge (an output vertex within 1e-14 below the radius of a cluster makes the set-up fail an assertion or write out of range, although it is inside of clusters) and C97_write_lost (a load written just in time where all basis functions of its clusters vanish is lost, although the separated polynomial would carry it). C97_write_at_partial proves the transpose property when no such cluster exists (always without polynomial). C97_computes states exactly when the set-up succeeds."
  },
  {
   "property": "C98",
   "status": "partial",
   "theorems": [
    "Verif.Basis.C98_beyond",
    "Verif.Basis.C98_continuous",
    "Verif.Basis.C98_decreasing",
    "Verif.Basis.C98_definite",
    "Verif.Basis.C98_definite_gaussian_partial",
    "Verif.Basis.C98_definite_spline",
    "Verif.Basis.C98_gaussian",
    "Verif.Basis.C98_gaussian_decreasing",
    "Verif.Basis.C98_gaussian_indefinite",
    "Verif.Basis.C98_gaussian_jump",
    "Verif.Basis.C98_load_beyond",
    "Verif.Basis.C98_positive",
    "Verif.Basis.C98_power",
    "Verif.Basis.C98_rejected",
    "Verif.Basis.C98_smooth",
    "Verif.Basis.C98_support",
    "Verif.Basis.C98_zero_radius"
   ],
   "note": "Proved for all compactly supported functions and, for continuity, all functions but the Gaussian; positive definiteness for the compactly supported polynomials and the inverse multiquadrics (C98_definite), for compact thin plate splines and vertices further apart than 1e-14 of the support radius, below which the code changes the function (C98_definite_spline), and for the Gaussian within its support radius (C98_definite_gaussian_partial). False for the Gaussian, which jumps by 1e-9 at its support radius (C98_gaussian_jump), is therefore not positive definite although it declares so (C98_gaussian_indefinite) and is accepted with support radius zero (C98_zero_radius). C98_load_beyond: without polynomial conservative loads beyond the support are lost."
  },
  {
   "property": "C99",
   "status": "partial",
   "theorems": [
    "Verif.Pum.C99_computes",
    "Verif.Pum.C99_covers",
    "Verif.Pum.C99_no_overlap",
    "Verif.Pum.C99_one_per_cluster",
    "Verif.Pum.C99_projection_gap",
    "Verif.Pum.C99_single",
    "Verif.Pum.C99_succeeds",
    "Verif.Pum.C99_useful"
   ],
   "note": "Coverage, usefulness, success and solvability are proved without projection of the centers (project-to-input=\"false\") and for the single cluster. The last sentence is false for the default projection: C99_projection_gap is a line of equidistant vertices that cannot be mapped onto itself. C99_no_overlap and C99_one_per_cluster are settings accepted by the configuration that always or sometimes fail. Exact arithmetic over the reals; serial."
  },
  {
   "property": "C100",
   "status": "partial",
   "theorems": [
    "Verif.Coarse.C100_kernel",
    "Verif.Coarse.C100_local",
    "Verif.Coarse.C100_normalised",
    "Verif.Coarse.C100_not_conservative",
    "Verif.Coarse.C100_order",
    "Verif.Coarse.C100_smooth",
    "Verif.Coarse.C100_value"
   ],
   "note": "Proved: value as sum over all particles without search, order and call independence, kernel non-negative, C1, local, integral over R^3 equal to pi over the constant used for it (C100_normalised). False: no load is lost. A particle without vertices within the radius disappears silently and the discrete total is not conserved although the constraint is called conservative (C100_not_conservative)."
  },
  {
   "property": "C101",
   "status": "proved",
   "theorems": [
    "Verif.Comp.C101_blocking_sends_deadlock",
    "Verif.Comp.C101_completes",
    "Verif.Comp.C101_cycle_deadlocks",
    "Verif.Comp.C101_double_mixes_data",
    "Verif.Comp.C101_initial_deadlocks",
    "Verif.Comp.C101_initial_order_matters",
    "Verif.Comp.C101_mixed_deadlocks",
    "Verif.Comp.C101_mixed_order_matters"
   ],
   "note": "C101_completes covers buffered sends (a send never waits for its receiver); C101_blocking_sends_deadlock shows that the order of the schemes matters more if sends block. All schemes share window size, max-time and max-time-windows, one message stands for all data of a scheme in one direction. Ordered is sufficient, not necessary (C101_mixed_order_matters). Compositions with an implicit scheme: C20, C21."
  },
  {
   "property": "C102",
   "status": "partial",
   "theorems": [
    "Verif.Accel.Svd.C102_bounded",
    "Verif.Accel.Svd.C102_changed_weights",
    "Verif.Accel.Svd.C102_doubled",
    "Verif.Accel.Svd.C102_empty_first",
    "Verif.Accel.Svd.C102_first_update_defined",
    "Verif.Accel.Svd.C102_rank",
    "Verif.Accel.Svd.C102_restart",
    "Verif.Accel.Svd.C102_same_weights_partial",
    "Verif.Accel.Svd.C102_stored",
    "Verif.Accel.Svd.C102_update",
    "Verif.Accel.Svd.C102_update_defined"
   ],
   "note": "Real arithmetic, serial products, Eigen's decomposition of the small matrix is assumed to be one (exists_solver: this can be met). C102_same_weights_partial needs weights that do not change between restarts; otherwise the claim is false: C102_restart gives the exact law, C102_changed_weights and C102_doubled show that the decomposition of the last restart keeps its old scaling. C102_empty_first: a first stored window without columns reads a singular value that does not exist."
  },
  {
   "property": "C103",
   "status": "partial",
   "theorems": [
    "Verif.Accel.C103_better_than_zero",
    "Verif.Accel.C103_bounded",
    "Verif.Accel.C103_columns",
    "Verif.Accel.C103_defined",
    "Verif.Accel.C103_dependent",
    "Verif.Accel.C103_restart",
    "Verif.Accel.C103_small_interface",
    "Verif.Accel.C103_smallest",
    "Verif.Accel.C103_trim_defined"
   ],
   "note": "Real arithmetic, serial matrix products; C103_restart, C103_smallest, C103_columns, C103_bounded and C103_better_than_zero with filters QR2/QR3. C103_defined needs three unknowns and a newest difference that is not zero. Otherwise the claim is false: C103_small_interface (one or two unknowns: every restart violates an assertion), C103_dependent (no filter or QR1: linearly dependent differences violate one)."
  },
  {
   "property": "C104",
   "status": "partial",
   "theorems": [
    "Verif.DataPath.C104_ahead_partial",
    "Verif.DataPath.C104_behind",
    "Verif.DataPath.C104_next_window_partial",
    "Verif.DataPath.C104_stamp",
    "Verif.DataPath.C104_stamp_unlimited",
    "Verif.DataPath.C104_truncated_fails",
    "Verif.DataPath.C104_truncated_wrong",
    "Verif.DataPath.C104_unannounced_initial_data",
    "Verif.DataPath.C104_window_end"
   ],
   "note": "C104_behind and C104_window_end cover parallel schemes and the first participant of serial schemes without restriction. C104_ahead_partial and C104_next_window_partial (second participant of a serial scheme) need that the time stamped on data without substeps is the end of the next window; C104_stamp: this holds exactly if max-time does not cut that window short. Otherwise the claim is false: C104_truncated_wrong (a wrong value is read) and C104_truncated_fails (an assertion of the storage fails in the second iteration). Initial data have to be zero unless initialize=true is configured: C104_unannounced_initial_data. One mapping per data, no actions, no remeshing."
  },
  {
   "property": "C105",
   "status": "proved",
   "theorems": [
    "Verif.TimeGrid.C105_constant",
    "Verif.TimeGrid.C105_covers",
    "Verif.TimeGrid.C105_gathered",
    "Verif.TimeGrid.C105_inside",
    "Verif.TimeGrid.C105_reduced",
    "Verif.TimeGrid.C105_round_trip",
    "Verif.TimeGrid.C105_same_steps",
    "Verif.TimeGrid.C105_stored",
    "Verif.TimeGrid.C105_times",
    "Verif.TimeGrid.C105_tiny_window",
    "Verif.TimeGrid.C105_unchanged"
   ],
   "note": "Exact arithmetic. Hypothesis Resolves: no time of the grid is within the tolerance of the start of a window; C105_tiny_window shows that a last window cut shorter than that changes the number of unknowns. C105_covers: the result meets the hypotheses of C104 on acceleration. Gradients, remeshing and the method between gathering and storing (C92, C93) are not part of this model."
  },
  {
   "property": "C106",
   "status": "partial",
   "theorems": [
    "Verif.Config.C106_blank",
    "Verif.Config.C106_comma",
    "Verif.Config.C106_decimal",
    "Verif.Config.C106_decimal_accepted_partial",
    "Verif.Config.C106_fraction",
    "Verif.Config.C106_int",
    "Verif.Config.C106_int_accepted_partial",
    "Verif.Config.C106_vector",
    "Verif.Config.C106_wrong"
   ],
   "note": "every well-formed literal is read exactly; the rejection half is false: blank attributes keep an old value or leave the variable unset, incomplete numbers are 0, numbers out of range are clamped (`C106_blank`, `C106_wrong`), and with the locale en_US installed a comma is dropped (`C106_comma`); without that locale these are the only exceptions (`C106_int_accepted_partial`, `C106_decimal_accepted_partial`); rounding to doubles is left out"
  },
  {
   "property": "C107",
   "status": "partial",
   "theorems": [
    "Verif.Config.C107_accepts",
    "Verif.Config.C107_alternatives",
    "Verif.Config.C107_leftover",
    "Verif.Config.C107_rejects",
    "Verif.Config.C107_state_free"
   ],
   "note": "equivalence with the specification from any state; needs that reading a value does not depend on the old one, which fails for blank integers (`C107_leftover`), and that required tags have no namespace, as in all schemas of preCICE (`C107_alternatives`)"
  },
  {
   "property": "C108",
   "status": "proved",
   "theorems": [
    "Verif.Config.Scheme.C108_many",
    "Verif.Config.Scheme.C108_many_accepts",
    "Verif.Config.Scheme.C108_many_unchecked",
    "Verif.Config.Scheme.C108_two",
    "Verif.Config.Scheme.C108_two_accepts",
    "Verif.Config.Scheme.C108_two_no_assert"
   ],
   "note": "a data is identified with its ID (the code identifies it by mesh and name, which is the same); direct access and waveform degree are arbitrary predicates on exchanges, looked at only with two participants (`C108_many_unchecked`: a multi coupling scheme accepts what is refused for two participants)"
  },
  {
   "property": "C109",
   "status": "partial",
   "theorems": [
    "Verif.Config.Scheme.C109_accepts",
    "Verif.Config.Scheme.C109_configured",
    "Verif.Config.Scheme.C109_endless_accepted",
    "Verif.Config.Scheme.C109_missing_link",
    "Verif.Config.Scheme.C109_no_assert",
    "Verif.Config.Scheme.C109_one_implicit",
    "Verif.Config.Scheme.C109_order",
    "Verif.Config.Scheme.C109_strict_unlimited",
    "Verif.Config.Scheme.C109_unlimited"
   ],
   "note": "equivalence with the specification `WellPosed`, values and absence of failed assertions for all tags that fit the schema. Missing from the statement: endless iterations are not refused, the check looks for a value that has been replaced before (`C109_unlimited`, `C109_endless_accepted`); strict measures without a limit are accepted and abort the run (`C109_strict_unlimited`); participants of a multi coupling scheme need not be connected (`C109_missing_link`). Configuration of the acceleration is left out, only its data are looked at"
  },
  {
   "property": "C110",
   "status": "partial",
   "theorems": [
    "Verif.Startup.C110_finalize",
    "Verif.Startup.C110_initialize",
    "Verif.Startup.C110_mismatch",
    "Verif.Startup.C110_not_provided",
    "Verif.Startup.C110_run",
    "Verif.Startup.C110_self_link",
    "Verif.Startup.C110_two_level",
    "Verif.Startup.C110_two_level_checked",
    "Verif.Startup.C110_two_level_wrong_receiver"
   ],
   "note": "All participants, links and meshes, blocking and buffered sends, induction over the labelled plans of all participants. Meshes and distributions are those of the providers and partners. Primary ranks with one-level initialization; for two-level initialization between several participants only the recipients of the provided mesh are modelled here, and they are wrong unless the two-level receiver is the first one (C110_two_level); two participants with all ranks are C116. The unchecked preconditions are shown necessary by C110_self_link and C110_not_provided."
  },
  {
   "property": "C111",
   "status": "proved",
   "theorems": [
    "Verif.Waveform.C111_after",
    "Verif.Waveform.C111_before",
    "Verif.Waveform.C111_linear",
    "Verif.Waveform.C111_polynomial",
    "Verif.Waveform.C111_weights"
   ],
   "note": "All degrees, time grids and polynomials, by uniqueness of the spline interpolant over the reals, transferred to rational times. Histories without changes of values in place after a read (C30). Times within the tolerance of a stored time return that sample."
  },
  {
   "property": "C112",
   "status": "partial",
   "theorems": [
    "Verif.Access.C112_direct",
    "Verif.Access.C112_direct_serial",
    "Verif.Access.C112_empty_buffers",
    "Verif.Access.C112_parallel_needs_region",
    "Verif.Access.C112_point_region_serial",
    "Verif.Access.C112_points_partial",
    "Verif.Access.C112_read",
    "Verif.Access.C112_serial_without_region",
    "Verif.Access.C112_set_region",
    "Verif.Access.C112_surplus_coordinates",
    "Verif.Access.C112_too_few_coordinates",
    "Verif.Access.C112_write",
    "Verif.Repartition.C112_repartition"
   ],
   "note": "All parts are proved except the last sentence: C112_points_partial needs a multiple of the dimension as number of coordinates and at least one point. Otherwise surplus coordinates are ignored (C112_surplus_coordinates) or the behaviour is undefined (C112_too_few_coordinates). Regions must be representable and a vertex must be needed somewhere; a one-point region fails in serial (C112_point_region_serial). Mappings are arbitrary functions that tag vertices of the mesh they see; a mesh is one message (C66). Two-level initialization: C59."
  },
  {
   "property": "C113",
   "status": "partial",
   "theorems": [
    "Verif.Mapping.C113_cell",
    "Verif.Mapping.C113_cell_write",
    "Verif.Mapping.C113_nn_read",
    "Verif.Mapping.C113_nn_same",
    "Verif.Mapping.C113_nn_write",
    "Verif.Mapping.C113_out_of_reach",
    "Verif.Mapping.C113_projection_2d",
    "Verif.Mapping.C113_projection_2d_write",
    "Verif.Mapping.C113_reach_margin",
    "Verif.Mapping.C113_reach_no_filter",
    "Verif.Mapping.C113_single_vertex",
    "Verif.Mapping.C113_single_vertex_error",
    "Verif.Mapping.Example.C113_far",
    "Verif.Mapping.Example.C113_projection_3d_partial"
   ],
   "note": "Nearest-neighbor (C113_nn_read, C113_nn_write, C113_nn_same), two-dimensional nearest-projection (C113_projection_2d, C113_projection_2d_write) and linear cell interpolation mappings in two and three dimensions (C113_cell, C113_cell_write, for vertices inside cells and not on their faces) composed with the distribution of the mesh (C112) and the gather-scatter transfer (C60), for all ranks and schedules. C113_reach_margin, C113_reach_no_filter: when closest vertices are within reach. The claim does not hold without that: C113_out_of_reach, Example.C113_far; a rank with a single vertex has no reach whatever the safety factor and the participant does not start (C113_single_vertex, C113_single_vertex_error). In three dimensions projections depend on the partition even without filter (C113_projection_3d_partial), which linear cell interpolation falls back to outside of cells."
  },
  {
   "property": "C114",
   "status": "partial",
   "theorems": [
    "Verif.Rbf.C114_clusters",
    "Verif.Rbf.C114_clusters_single",
    "Verif.Rbf.C114_compact_spline",
    "Verif.Rbf.C114_definite",
    "Verif.Rbf.C114_gaussian_partial",
    "Verif.Rbf.C114_gaussian_refused",
    "Verif.Rbf.C114_integrated",
    "Verif.Rbf.C114_integrated_refused",
    "Verif.Rbf.C114_multiquadrics",
    "Verif.Rbf.C114_single",
    "Verif.Rbf.C114_thin_plate_integrated",
    "Verif.Rbf.C114_thin_plate_refused",
    "Verif.Rbf.C114_volume"
   ],
   "note": "Proved for the exact decomposition. The title is false for the Gaussian, which refuses three distinct vertices for every shape parameter (C114_gaussian_refused), for thin plate splines without integrated polynomial (C114_thin_plate_refused) and for a single vertex with volume or thin plate splines (C114_single, C114_clusters_single)."
  },
  {
   "property": "C115",
   "status": "proved",
   "theorems": [
    "Verif.Mapping.C115_lost",
    "Verif.Mapping.C115_needed_global",
    "Verif.Mapping.C115_needed_support",
    "Verif.Mapping.C115_read",
    "Verif.Mapping.C115_write"
   ],
   "note": "C115_read, C115_write for any basis function for which the serial system can be set up (see C114). C115_needed_global, C115_needed_support: sufficient conditions. C115_lost is a disagreement outside the hypothesis: a vertex no rank needs makes the parallel run access memory out of bounds although the serial run works."
  },
  {
   "property": "C116",
   "status": "partial",
   "theorems": [
    "Verif.TwoLevelInit.C116_connect",
    "Verif.TwoLevelInit.C116_empty_rank_waits",
    "Verif.TwoLevelInit.C116_initialized",
    "Verif.TwoLevelInit.C116_link",
    "Verif.TwoLevelInit.C116_maps",
    "Verif.TwoLevelInit.C116_no_filter_differs",
    "Verif.TwoLevelInit.C116_no_overlap",
    "Verif.TwoLevelInit.C116_repartition",
    "Verif.TwoLevelInit.C116_same_as_one_level",
    "Verif.TwoLevelInit.C116_waits"
   ],
   "note": "Setup, distribution, maps and transfer for all arrangements and schedules with the geometric filter on the secondary ranks (C116_initialized). Data arrives if no rank connected to one with vertices is left without vertices; otherwise the provider waits (C116_empty_rank_waits). Without geometric filter ranks lack vertices (C116_no_filter_differs); the filter on the primary rank is refused by the code. If no boxes overlap at all the receiver reports an error."
  },
  {
   "property": "C117",
   "status": "partial",
   "theorems": [
    "Verif.Export.C117_apart",
    "Verif.Export.C117_disabled",
    "Verif.Export.C117_files",
    "Verif.Export.C117_iteration_series",
    "Verif.Export.C117_nothing_else",
    "Verif.Export.C117_series",
    "Verif.Export.Examples.C117_compositional_overwrites",
    "Verif.Export.Examples.C117_iteration_written_data",
    "Verif.Export.Examples.C117_names_collide"
   ],
   "note": "Model of the exporters of a participant, their names, the series and the pieces, for any sequence of calls and any interleaving of ranks. Proved in full for a participant in one coupling scheme and for every-iteration exports. Missing, because false: participants in several schemes with different window sizes (C117_compositional_overwrites), the series of every-iteration exporters (C117_iteration_series), exporters whose file names coincide (C117_names_collide; C117_apart gives a criterion), and written data after an iteration that is repeated (C117_iteration_written_data)."
  },
  {
   "property": "C118",
   "status": "partial",
   "theorems": [
    "Verif.Export.C118_csv",
    "Verif.Export.C118_csv_ambiguous",
    "Verif.Export.C118_digits_merge",
    "Verif.Export.C118_names_ambiguous",
    "Verif.Export.C118_six_digits",
    "Verif.Export.C118_vtk_drops_triangles",
    "Verif.Export.C118_vtk_partial",
    "Verif.Export.C118_vtp_drops_tetrahedra",
    "Verif.Export.C118_vtp_partial",
    "Verif.Export.C118_vtu"
   ],
   "note": "Files as lists of numbers and names, read back by readers of the formats. Proved in full for VTU and CSV; VTP without tetrahedra; legacy VTK in three dimensions, or without triangles in two. Otherwise cells are left out (C118_vtp_drops_tetrahedra, C118_vtk_drops_triangles). Numbers are kept up to 6 digits (C118_six_digits), so that vertices can coincide (C118_digits_merge). Column and array names can be ambiguous (C118_csv_ambiguous, C118_names_ambiguous). Data without any sample are left out."
  },
  {
   "property": "C119",
   "status": "partial",
   "theorems": [
    "Verif.Config.Part.C119_accepts",
    "Verif.Config.Part.C119_direct_write_and_mapping",
    "Verif.Config.Part.C119_just_in_time_without_data",
    "Verif.Config.Part.C119_multiscale_of_serial_partner",
    "Verif.Config.Part.C119_read_once",
    "Verif.Config.Part.C119_refused_by_itself_only",
    "Verif.Config.Part.C119_refuses_unambiguous",
    "Verif.Config.Part.C119_useful",
    "Verif.Config.Part.C119_write_targets"
   ],
   "note": "All sequences of tags: acceptance is equivalent to a condition on the tags only, with the resulting mappings (C119_accepts, C119_read_once, C119_write_targets, C119_useful). Missing, because false: just-in-time mappings without data are accepted (C119_just_in_time_without_data), a data can be written directly and be the target of a mapping, whose values are then dropped (C119_direct_write_and_mapping), and some participants are refused although it is clear what is meant (C119_refuses_unambiguous, C119_multiscale_of_serial_partner). Exporters, watch points and actions are not part of this model; that mesh names are unique and providers exist is assumed."
  },
  {
   "property": "C120",
   "status": "partial",
   "theorems": [
    "Verif.Mapping.C120_affine",
    "Verif.Mapping.C120_inside",
    "Verif.Mapping.C120_missed_2d",
    "Verif.Mapping.C120_moments",
    "Verif.Mapping.C120_tetrahedra",
    "Verif.Mapping.C120_triangles"
   ],
   "note": "C120_tetrahedra holds without restriction, C120_triangles if at most four bounding boxes of triangles contain the vertex; C120_inside, C120_affine, C120_moments follow. In two dimensions the claim is false otherwise (C120_missed_2d): the search asks for four triangles by the distance to their bounding boxes, so with slender triangles across the axes the one around the vertex may not be among them and the value is taken from an edge without notice."
  },
  {
   "property": "C121",
   "status": "partial",
   "theorems": [
    "Verif.Log.C121_always_written",
    "Verif.Log.C121_convergence_log",
    "Verif.Log.C121_files",
    "Verif.Log.C121_flag_at_max",
    "Verif.Log.C121_flag_partial",
    "Verif.Log.C121_iterations_log",
    "Verif.Log.C121_remeshing_deletes",
    "Verif.Log.C121_total_is_sum",
    "Verif.Log.C121_transparent"
   ],
   "note": "C121_files describes both files after any history; C121_iterations_log, C121_total_is_sum and C121_convergence_log are the claim without remeshing; C121_transparent and C121_always_written: the files do not influence the coupling, only a strict measure at the last iteration aborts. False in the code: remeshing reopens the files and deletes the earlier rows (C121_remeshing_deletes); a window that converges in the last allowed iteration is logged as not converged (C121_flag_at_max, C121_flag_partial says what the entry means)."
  },
  {
   "property": "C122",
   "status": "partial",
   "theorems": [
    "Verif.DataPath.C122_end_once",
    "Verif.DataPath.C122_read",
    "Verif.DataPath.C122_read_once_partial",
    "Verif.DataPath.C122_read_wrong",
    "Verif.DataPath.C122_second_wrong",
    "Verif.DataPath.C122_sent",
    "Verif.DataPath.C122_sent_once_partial",
    "Verif.DataPath.C122_sent_wrong",
    "Verif.DataPath.C122_start_read_again",
    "Verif.DataPath.C122_start_sent_again"
   ],
   "note": "What is sent and read in every run with an action is proved exactly (C122_sent, C122_read); new samples, and so the value at the end of every window, get the action once (C122_end_once, C122_sent_once_partial without substeps). The full claim is false: the sample kept at the start of the window gets the action again in every iteration and in every following window (C122_start_sent_again, C122_start_read_again, with concrete runs C122_sent_wrong, C122_read_wrong, C122_second_wrong). It holds for actions that can be repeated without effect, and for a parallel-explicit reader (C122_read_once_partial). The reader theorems assume a read mapping."
  },
  {
   "property": "C123",
   "status": "partial",
   "theorems": [
    "Verif.Config.Accel.C123_accepted",
    "Verif.Config.Accel.C123_aitken_preconditioner",
    "Verif.Config.Accel.C123_configure_partial",
    "Verif.Config.Accel.C123_default_truncation",
    "Verif.Config.Accel.C123_once",
    "Verif.Config.Accel.C123_one_acceleration"
   ],
   "note": "C123_accepted determines acceptance and the result for every tag but Aitken with a preconditioner; C123_configure_partial is the claim apart from two cases in which the code violates it: Aitken with a preconditioner is never accepted (C123_aitken_preconditioner), and IMVJ without a restart mode truncates with 0 instead of the documented 1e-4 (C123_default_truncation). C123_one_acceleration and C123_once: one acceleration per scheme, data in one scheme."
  },
  {
   "property": "C124",
   "status": "partial",
   "theorems": [
    "Verif.Config.Act.C124_configure_partial",
    "Verif.Config.Act.C124_empty_target",
    "Verif.Config.Act.C124_perform",
    "Verif.Config.Act.C124_perform_target",
    "Verif.Config.Act.C124_python_path",
    "Verif.Config.Act.C124_python_source",
    "Verif.Config.Act.C124_python_target"
   ],
   "note": "C124_configure_partial: acceptance and result of every tag apart from Python actions without source or path and empty names; C124_perform, C124_perform_target: what a Python action does. False in the code: omitted source data is undefined behaviour (C124_python_source), an omitted path is rejected (C124_python_path), omitted target data is undefined behaviour when the action is performed (C124_python_target), an empty target name is undefined behaviour (C124_empty_target)."
  },
  {
   "property": "C125",
   "status": "partial",
   "theorems": [
    "Verif.Config.Conn.C125_accepted",
    "Verif.Config.Conn.C125_connections",
    "Verif.Config.Conn.C125_matching_partial",
    "Verif.Config.Conn.C125_mesh_partial",
    "Verif.Config.Conn.C125_meshes",
    "Verif.Config.Conn.C125_orphan",
    "Verif.Config.Conn.C125_self"
   ],
   "note": "C125_accepted: acceptance; C125_connections, C125_matching_partial: connections of all participants fit together, given different names of participants; C125_meshes, C125_mesh_partial: who sends which mesh to whom and when connectivity is required. Not checked by the code and therefore false: a communication of a participant with itself is accepted (C125_self), a mesh can be received from a participant that does not provide it (C125_orphan)."
  },
  {
   "property": "C126",
   "status": "partial",
   "theorems": [
    "Verif.Config.MapMethod.C126_accepts_partial",
    "Verif.Config.MapMethod.C126_alias_differs",
    "Verif.Config.MapMethod.C126_alias_ignores_dead",
    "Verif.Config.MapMethod.C126_any_multiquadrics",
    "Verif.Config.MapMethod.C126_clusters_asserted",
    "Verif.Config.MapMethod.C126_coarse_graining",
    "Verif.Config.MapMethod.C126_device",
    "Verif.Config.MapMethod.C126_device_text",
    "Verif.Config.MapMethod.C126_gaussian_radius",
    "Verif.Config.MapMethod.C126_independent",
    "Verif.Config.MapMethod.C126_last_executor",
    "Verif.Config.MapMethod.C126_methods_partial",
    "Verif.Config.MapMethod.C126_negative_vertices",
    "Verif.Config.MapMethod.C126_zero_radius"
   ],
   "note": "C126_accepts_partial: a list of mappings is accepted exactly if each is Valid; C126_methods_partial: each mapping is the one its tag describes (unique: describes_unique); C126_independent: it does not depend on the other tags; C126_gaussian_radius: a Gaussian given by a support radius has this radius. Missing because it is false: dead axes of the alias mapping:rbf are ignored (C126_alias_ignores_dead) and its clusters differ from rbf-pum-direct (C126_alias_differs), the last of several executors wins (C126_last_executor), support radius 0 of Gaussians (C126_zero_radius), negative numbers of vertices (C126_negative_vertices), any shape of multiquadrics (C126_any_multiquadrics), text after device ids (C126_device_text), coarse graining that is not implemented (C126_coarse_graining) are accepted; bad clusters are only asserted (C126_clusters_asserted)."
  },
  {
   "property": "C127",
   "status": "partial",
   "theorems": [
    "Verif.PetRbf.C127_conservative_partial",
    "Verif.PetRbf.C127_conserves_partial",
    "Verif.PetRbf.C127_consistent_partial",
    "Verif.PetRbf.C127_dead_axis",
    "Verif.PetRbf.C127_distribution_partial",
    "Verif.PetRbf.C127_flat",
    "Verif.PetRbf.C127_halo",
    "Verif.PetRbf.C127_rescaled",
    "Verif.PetRbf.C127_separated_affine_partial",
    "Verif.PetRbf.C127_separated_interpolates_partial",
    "Verif.PetRbf.C127_separated_partial",
    "Verif.PetRbf.C127_small_constant",
    "Verif.PetRbf.C127_small_loads"
   ],
   "note": "Proved if the ranks know all vertices in the support of their vertices and (compact support) the vertices do not differ along dead axes: without and with integrated polynomial, and for all conservative mappings, the iterative mapping is the direct one except that values below 1e-9 become zero; with separated polynomial a consistent mapping is the direct one with the part beside the fitted affine function divided by the interpolant of one, so that values at vertices and affine data are reproduced. Any two distributions agree. The full claim is false: C127_small_constant, C127_small_loads, C127_dead_axis, C127_rescaled (not the direct mapping, not adjoint), C127_flat (input vertices in a plane), C127_halo (unknown neighbours). KSP solvers are exact."
  },
  {
   "property": "C128",
   "status": "partial",
   "theorems": [
    "Verif.Batched.C128_affine_partial",
    "Verif.Batched.C128_conservative",
    "Verif.Batched.C128_duplicate",
    "Verif.Batched.C128_empty_rank",
    "Verif.Batched.C128_executor_partial",
    "Verif.Batched.C128_flat",
    "Verif.Batched.C128_interpolates_partial",
    "Verif.Batched.C128_race",
    "Verif.Batched.C128_single_thread",
    "Verif.Batched.C128_unity"
   ],
   "note": "Proved: partition of unity of the device weights, interpolation, affine reproduction for spread clusters, and equality with the CPU mapping when no axis is dropped and no weight is below 1e-14, for every team and every orderly schedule (a single thread always is). The full claim is false: a missing barrier makes some schedules wrong (C128_race), flat clusters do not reproduce constants (C128_flat), ranks with an empty mesh are refused (C128_empty_rank), duplicate vertices give NaN instead of an error (C128_duplicate), conservative mappings are accepted but not implemented (C128_conservative)."
  },
  {
   "property": "C129",
   "status": "partial",
   "theorems": [
    "Verif.Config.Dataset.C129_accepts",
    "Verif.Config.Dataset.C129_bounds",
    "Verif.Config.Dataset.C129_describes_partial",
    "Verif.Config.Dataset.C129_dropped_bound",
    "Verif.Config.Dataset.C129_duplicate_mesh",
    "Verif.Config.Dataset.C129_ids",
    "Verif.Config.Dataset.C129_lookup",
    "Verif.Config.Dataset.C129_vector_bounds"
   ],
   "note": "Exact characterization of the accepted documents (C129_accepts), and what meshes and data are if names of meshes differ. The full claim is false: bounds of vectors are only compared if both are finite, infinite and NaN bounds are ignored (C129_vector_bounds); a bound for z is dropped in two dimensions (C129_dropped_bound); meshes of the same name are only noticed by assertions (C129_duplicate_mesh)."
  },
  {
   "property": "C130",
   "status": "partial",
   "theorems": [
    "Verif.Profiling.C130_advance_null",
    "Verif.Profiling.C130_errors",
    "Verif.Profiling.C130_lost",
    "Verif.Profiling.C130_memory",
    "Verif.Profiling.C130_nested_partial",
    "Verif.Profiling.C130_not_direct",
    "Verif.Profiling.C130_off",
    "Verif.Profiling.C130_second",
    "Verif.Profiling.C130_times",
    "Verif.Profiling.C130_told_partial",
    "Verif.Profiling.C130_unstopped"
   ],
   "note": "Proved for all runs with flush-every 0 or at least 13 (10 without MPI) and a call of initialize. False otherwise: with flush-every 1 to 12 the records of the constructor are flushed before the file is opened and lost together with names of ids, so that the file cannot be read (C130_lost, for all runs); without initialize the section solver.initialize never ends (C130_unstopped, for all runs); flush-every 1 does not write records directly (C130_not_direct); a second participant in the process destroys both files (C130_second)."
  },
  {
   "property": "C131",
   "status": "partial",
   "theorems": [
    "Verif.Bindings.C131_blank",
    "Verif.Bindings.C131_c_partial",
    "Verif.Bindings.C131_create",
    "Verif.Bindings.C131_fortran_partial",
    "Verif.Bindings.C131_none",
    "Verif.Bindings.C131_overflow",
    "Verif.Bindings.C131_program_fortran_partial",
    "Verif.Bindings.C131_program_partial",
    "Verif.Bindings.C131_replaced",
    "Verif.Bindings.C131_same",
    "Verif.Bindings.C131_unchecked",
    "Verif.Bindings.C131_unknown"
   ],
   "note": "Proved for every API with the dimensions of the configuration: each function of the C and of the Fortran binding with arrays of the documented sizes (fewer than 2^31 numbers, names padded with blanks in Fortran) does what the C++ function does, also for whole programs; both bindings agree for all sizes. Missing because the code does otherwise: five C functions are undefined without a participant (C131_unchecked), a second creation from Fortran replaces the participant (C131_replaced), blank Fortran names read outside of the string (C131_blank), sizes of 2^31 or more overflow int (C131_overflow)."
  },
  {
   "property": "C132",
   "status": "partial",
   "theorems": [
    "Verif.Logging.C132_accepted",
    "Verif.Logging.C132_all_disabled",
    "Verif.Logging.C132_attributes",
    "Verif.Logging.C132_default",
    "Verif.Logging.C132_locked",
    "Verif.Logging.C132_not_disabled",
    "Verif.Logging.C132_rank",
    "Verif.Logging.C132_records_partial",
    "Verif.Logging.C132_severity",
    "Verif.Logging.C132_stream",
    "Verif.Logging.C132_text_partial",
    "Verif.Logging.C132_warning"
   ],
   "note": "Proved for all sinks, filters, formats and messages if the two kinds of enabled agree (all off, or one sink on); texts except warnings in the default format. Missing because the code does otherwise: <log enabled=\"false\"> is ignored if a sink is enabled (C132_not_disabled), disabling all sinks lets the default sink of Boost print everything of every rank (C132_all_disabled), the default formatter has a stray bracket in warnings (C132_warning), all ranks are rank 0 in builds without MPI (C132_rank), an unknown stream is a null pointer (C132_stream)."
  },
  {
   "property": "C133",
   "status": "partial",
   "theorems": [
    "Verif.Mpi.C133_accepts",
    "Verif.Mpi.C133_after_check",
    "Verif.Mpi.C133_again",
    "Verif.Mpi.C133_alone",
    "Verif.Mpi.C133_application",
    "Verif.Mpi.C133_balanced",
    "Verif.Mpi.C133_check_failed",
    "Verif.Mpi.C133_failed",
    "Verif.Mpi.C133_frees_nothing",
    "Verif.Mpi.C133_petsc",
    "Verif.Mpi.C133_petsc_left",
    "Verif.Mpi.C133_sessions_partial",
    "Verif.Mpi.C133_stale",
    "Verif.Mpi.C133_two",
    "Verif.Mpi.C133_two_comm"
   ],
   "note": "Proved for all programs: preCICE frees no communicator, initializes MPI at most once and never finalizes more than it has initialized; for participants one after the other whose construction succeeds the exact calls and communicators. Missing because the code does otherwise: a construction or check that fails leaves MPI initialized for good (C133_failed, C133_check_failed) or its communicator to the next participant (C133_stale), MPI is used after its end by a second participant (C133_again) or after a check (C133_after_check), with two participants at a time nobody finalizes MPI (C133_two) and communicators are mixed up (C133_two_comm), and PETSc of the application is finalized (C133_petsc) or PETSc left running (C133_petsc_left)."
  },
  {
   "property": "C134",
   "status": "partial",
   "theorems": [
    "Verif.Remesh.C134_end",
    "Verif.Remesh.C134_lost",
    "Verif.Remesh.C134_repeat",
    "Verif.Remesh.C134_sender",
    "Verif.Remesh.C134_sizes",
    "Verif.Remesh.C134_start_partial",
    "Verif.Remesh.C134_window",
    "Verif.Remesh.C134_zero",
    "Verif.Remesh.C134_zero_start"
   ],
   "note": "Sizes are always right (C134_sizes) and so are values at the ends of windows (C134_window, C134_end), for all kinds of parallel schemes, exchanges and mappings. The value at the start of a repeated window is kept as long as no mesh is reset in it (C134_repeat, C134_start_partial) or only the sender resets its mesh and the reader maps (C134_sender). Otherwise the claim is false: the value at the start is lost (C134_lost), or it and the values of all time steps written so far are replaced by zeros (C134_zero, C134_zero_start). Not modelled: acceleration, gradients, ranks, more than one data set."
  },
  {
   "property": "C135",
   "status": "partial",
   "theorems": [
    "Verif.Ports.C135_no_deadlock",
    "Verif.Ports.C135_right",
    "Verif.Ports.C135_single_hangs",
    "Verif.Ports.C135_single_partial",
    "Verif.Ports.C135_terminates"
   ],
   "note": "Sockets and one MPI port per rank: no deadlock, at most nA + nR * nA steps, and right connections at the end, for all distributions and interleavings (C135_no_deadlock, C135_terminates, C135_right). A single MPI port connects all ranks if all of them share a vertex with the other participant (C135_single_partial); otherwise the claim is false: ranks without a partner skip the collective call and the others wait forever (C135_single_hangs). The pre-connections of two-level initialization are not modelled here."
  },
  {
   "property": "C136",
   "status": "partial",
   "theorems": [
    "Verif.Doc.C136_dtd_complete_partial",
    "Verif.Doc.C136_dtd_order",
    "Verif.Doc.C136_dtd_participant",
    "Verif.Doc.C136_dtd_rejects_accepted",
    "Verif.Doc.C136_dtd_sound_partial",
    "Verif.Doc.C136_dtd_twice",
    "Verif.Doc.C136_links_partial",
    "Verif.Doc.C136_links_swapped",
    "Verif.Doc.C136_links_third"
   ],
   "note": "For schemas without two tags of the same name: valid documents with readable values are accepted, accepted documents in the order of the schema are valid, and links lead to the right headings. The full claim is false: the DTD prescribes an order, tags with equal names are declared repeatedly, and the third and later headings of a name have no link (C136_dtd_rejects_accepted, C136_dtd_twice, C136_links_third). The schema of preCICE itself has equal names."
  }
 ]
}