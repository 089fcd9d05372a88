# Axioms of the theorems of the manifest

Output of `#print axioms`, grouped. All axioms are those of Lean itself.

## none (4)

`Measure.C11_strict_infinite_aborts`, `Com.Ring.C70_same_order_deadlocks`, `Startup.C110_two_level_wrong_receiver`, `Doc.C136_links_swapped`

## `propext` (19)

`C08_fulfilled_passes`, `Dist.C60_wrong_size`, `Com.C67_empty_connections_rejected`, `Com.Info.C68_writer_publishes`, `MultiLock.C85_counts`, `Edit.C87_no_data_undefined`, `Config.C106_int`, `Config.C107_alternatives`, `TwoLevelInit.C116_waits`, `Export.C117_apart`, `Config.Dataset.C129_dropped_bound`, `Bindings.C131_none`, `Bindings.C131_overflow`, `Bindings.C131_unchecked`, `Bindings.C131_unknown`, `Logging.C132_locked`, `Logging.C132_severity`, `Doc.C136_dtd_participant`, `Doc.C136_dtd_twice`

## `Quot.sound` (1)

`Box.C40_symm`

## `Quot.sound`, `propext` (43)

`C06_initialize`, `Measure.C11_infinite`, `Measure.C11_measureConvergence`, `Api.Participant.C32_duplicates`, `Dist.C58_none`, `Com.Info.C68_atomic`, `Com.Ring.C70_single`, `MultiLock.C85_all`, `MultiLock.C85_refines`, `MultiLock.C85_unknown`, `UniqueIds.C86_consecutive`, `UniqueIds.C86_distinct`, `UniqueIds.C86_fresh`, `Config.C106_int_accepted_partial`, `Startup.C110_two_level`, `Access.C112_parallel_needs_region`, `Access.C112_serial_without_region`, `Access.C112_surplus_coordinates`, `Export.C117_disabled`, `Config.Part.C119_multiscale_of_serial_partner`, `Config.Part.C119_refused_by_itself_only`, `Config.Part.C119_refuses_unambiguous`, `Config.Act.C124_empty_target`, `Config.Act.C124_python_path`, `Config.Act.C124_python_source`, `Bindings.C131_blank`, `Logging.C132_accepted`, `Logging.C132_attributes`, `Logging.C132_stream`, `Mpi.C133_after_check`, `Mpi.C133_again`, `Mpi.C133_alone`, `Mpi.C133_balanced`, `Mpi.C133_frees_nothing`, `Mpi.C133_petsc`, `Mpi.C133_petsc_left`, `Mpi.C133_sessions_partial`, `Mpi.C133_stale`, `Mpi.C133_two_comm`, `Ports.C135_single_hangs`, `Doc.C136_dtd_complete_partial`, `Doc.C136_dtd_order`, `Doc.C136_dtd_sound_partial`

## `Classical.choice`, `Quot.sound`, `propext` (697)

`C01_subdivision_independent`, `C01_truncated_end_not_snapped`, `C01_window_end_exact`, `C01_window_start_exact`, `C02_no_overshoot`, `C02_rejected`, `C03_progress_possible`, `C03_tolerated_overshoot_stuck`, `C04_no_step_after_end`, `C04_termination`, `C05_monotone_or_restore`, `C06_explicit`, `C06_implicit`, `C06_implicit_limited_partial`, `C06_late_write_request`, `C07_checkpoint_is_window_start`, `C07_missing_write_request`, `C07_read_restores_write`, `C08_unfulfilled_fails`, `C09_max_iterations`, `C10_min_iterations`, `Measure.C11_at_max`, `Measure.C11_before_max`, `C12_explicit`, `C12_implicit_measuring`, `C12_implicit_receiving`, `C13_window_counter`, `C14_first_method`, `C14_serial_explicit`, `C14_tolerance_deadlock`, `C15_serial_implicit`, `C16_parallel`, `C17_direct_exchange_blocks`, `C17_multi`, `C17_outcome`, `C17_star_blocking`, `C18_agreement`, `C18_verdict`, `C19_follows`, `Comp.C20_explicit_count`, `Comp.C20_explicit_exchange_once_per_window`, `Comp.C20_explicit_on_hold`, `Comp.C20_misaligned_sends_twice`, `Comp.C20_tolerated_overshoot_skips_exchange`, `Comp.C21_accepted_step_fits_all`, `Comp.C21_common_time`, `Comp.C21_max_step_min`, `Comp.C21_ongoing_iff`, `Comp.C21_uneven_end_stuck`, `C22_first_method`, `C22_initial_data`, `C22_right_window`, `Waveform.C23_overwrite`, `Waveform.C23_times_increasing`, `Waveform.C23_write`, `Waveform.C24_interpolant`, `Waveform.C24_read_stored`, `Waveform.C25_degree_zero`, `Waveform.C25_single_sample`, `Waveform.C26_linear`, `Waveform.C27_constant`, `Waveform.C28_continuous`, `Waveform.C28_start_of_next_window`, `Waveform.C29_received_start_kept`, `Waveform.C29_written_trimmed`, `Accel.C30_inPlace_stale`, `Waveform.C30_reads_from_current_samples_partial`, `Waveform.C30_setAll_stale`, `Api.Participant.C31_accepts`, `Api.Participant.C31_rejects`, `Api.Participant.C31_successful`, `Api.Participant.C32_direct`, `Api.Participant.C32_direct_lost`, `Api.Participant.C32_initial`, `Api.Participant.C32_order`, `Api.Participant.C32_sent_partial`, `Api.Participant.C32_stale_after_reset`, `Api.Participant.C33_round_trip`, `Api.Participant.C34_ids`, `Api.Participant.C34_one_by_one`, `Api.Participant.C34_size`, `Api.Participant.C35_locked`, `Api.Participant.C35_relocked`, `Api.Participant.C35_reset`, `Api.Participant.C35_unlocked`, `Api.Participant.C36_accepts`, `Api.Participant.C36_advance`, `Api.Participant.C36_advance_first`, `Api.Participant.C36_error_advances_time`, `Api.Participant.C36_mesh_after_finalize`, `Api.Participant.C36_no_ub_partial`, `Api.Participant.C36_order`, `Api.Participant.C36_ub_reachable`, `Api.Participant.C37_connectivity`, `Api.Participant.C37_data`, `Api.Participant.C37_quads_not_atomic`, `Mesh.C38_coincident_vertices_lose_elements`, `Mesh.C38_complete`, `Mesh.C38_no_duplicates`, `Mesh.C38_nothing_extra`, `Mesh.C38_nothing_lost`, `Box.C39_computed_box_contains`, `Box.C39_computed_box_keeps`, `Box.C39_computed_box_least`, `Box.C39_contains`, `Box.C39_expand`, `Box.C39_join`, `Box.C39_scale`, `Box.C40_default_box`, `Box.C40_default_boxes_overlap`, `Box.C40_overlap_iff`, `Mesh.C41_filter`, `Mesh.C42_addMesh`, `Mesh.C42_ok`, `Mapping.C43_nearest`, `Mapping.C43_range`, `Mapping.C44_sum`, `Mapping.C45_nn`, `Mapping.C45_projection`, `Mapping.C46_constants`, `Mapping.C46_dropped`, `Mapping.C46_totals`, `Mapping.C46_weights`, `Mapping.C47_affine`, `Mapping.C47_exist`, `Mapping.C47_full_dimensional`, `Mapping.C48_range`, `Mapping.C49_cell`, `Mapping.C49_global_2d`, `Mapping.C49_minimal`, `Mapping.C49_vertex`, `Mapping.C50_empty`, `Mapping.C50_error`, `Mapping.C50_integral`, `Mapping.C50_zero`, `Mapping.C51_affine`, `Mapping.C51_by_component`, `Mapping.C51_documented_scalar_partial`, `Mapping.C51_documented_symmetric_partial`, `Mapping.C51_documented_vector`, `Mapping.Rotation.C51_documented_order_differs`, `Mapping.C52_nn`, `Mapping.C52_projection`, `Mapping.C52_skip`, `Mapping.C52_zero`, `Mapping.C53_complete`, `Mapping.C53_exactly`, `Mapping.C53_succeeds`, `Mapping.C54_invalidate`, `Mapping.C54_read`, `Mapping.C54_reads`, `Mapping.C54_repeat`, `Mapping.C54_write`, `Mapping.C54_write_twice`, `Multiscale.C55_average`, `Multiscale.C55_collect_wrong`, `Multiscale.C55_constant`, `Multiscale.C55_nearest_partial`, `Multiscale.C55_out_of_bounds`, `Multiscale.C55_spread`, `Multiscale.C55_spread_wrong`, `Multiscale.C56_accepts`, `Multiscale.C56_circle_mean`, `Multiscale.C56_closest`, `Multiscale.C56_constant`, `Multiscale.C56_line_mean`, `Multiscale.C56_mean`, `Multiscale.C56_parabolic_circle`, `Multiscale.C56_roundtrip`, `Multiscale.C56_roundtrip_2d`, `Multiscale.C56_square`, `Multiscale.C56_square_2d_undefined`, `Dist.C57_global_ids`, `Dist.C58_one_owner`, `Dist.C58_unique_rank`, `Dist.C59_no_filter_two_owners`, `Dist.C59_one_owner_partial`, `Dist.C59_some_owner`, `Dist.C59_unsorted_two_owners`, `Dist.C60_gather_scatter`, `Dist.C60_partition`, `Dist.C61_same_partial`, `Dist.C62_gather_scatter`, `Dist.C62_negation`, `Dist.C62_p2p_untouched`, `Dist.C62_zero_partial`, `Dist.C63_allreduce`, `Dist.C63_broadcast`, `Dist.C63_reduce`, `Dist.C64_dot`, `Dist.C64_norm`, `Dist.C64_partition`, `Dist.C64_verdict`, `Com.C65_gradient_buffer_too_large`, `Com.C65_gradient_gather_fails`, `Com.C65_gradients_gather_scatter`, `Com.C65_gradients_p2p`, `Com.C65_lossless`, `Com.C65_parallel_p2p`, `Com.C65_parallel_partial`, `Com.C66_append`, `Com.C66_lossless`, `Com.C67_box`, `Com.C67_box_map`, `Com.C67_connections_partial`, `Com.Info.C68_leftover`, `Com.Info.C68_reader_succeeds`, `Com.Queue.C69_drains`, `Com.Queue.C69_none_lost`, `Com.Queue.C69_order`, `Com.Ring.C70_ring`, `Accel.C71_convex`, `Accel.C71_rejects`, `Accel.C71_relaxed`, `Accel.C71_same_grid`, `Accel.C71_succeeds`, `Accel.C72_affine`, `Accel.C72_affine_defined`, `Accel.C72_converged`, `Accel.C72_start`, `Accel.C72_undefined_iff`, `Accel.C72_zero_factor`, `Accel.C72_zero_factor_stays`, `Accel.C73_backup_unused`, `Accel.C73_counts`, `Accel.C73_dependent_column`, `Accel.C73_qr3_undefined`, `Accel.C73_update`, `Accel.C74_latest_kept`, `Accel.C74_oldest_partial`, `Accel.C74_windows_partial`, `Accel.C74_wrong_window`, `Accel.C75_absolute_deletes_all`, `Accel.C75_diagonal`, `Accel.C75_exact`, `Accel.C75_exact_partial`, `Accel.C75_history`, `Accel.C75_latest_kept`, `Accel.C75_qr1`, `Accel.C75_qr1_done`, `Accel.C75_rebuilt`, `Accel.C75_reset`, `Accel.C75_resetFilter`, `Accel.C75_reset_mismatch`, `Accel.C76_clamp_partial`, `Accel.C76_discard_partial`, `Accel.C76_scale_needs_output`, `Accel.C76_scale_partial`, `Accel.C76_substeps`, `Accel.C76_substeps_wrong_data`, `Accel.C76_untouched_partial`, `Accel.C77_request`, `Accel.C77_reversible`, `Accel.C77_zero_factor`, `Accel.C78_frozen`, `Accel.C78_not_before`, `Accel.C79_delete`, `Accel.C79_history`, `Accel.C79_insert`, `Accel.C79_insert_fails_iff`, `Accel.C79_rest`, `Measure.C80_abs_or_rel`, `Measure.C80_absolute`, `Measure.C80_identical`, `Measure.C80_relative`, `Measure.C80_relative_scaling`, `Measure.C80_residual_first`, `Measure.C80_residual_never_if_first_zero`, `Measure.C80_residual_scaling`, `Measure.C80_residual_series`, `WatchPoint.C81_no_vertices_undefined`, `WatchPoint.C81_one_rank`, `WatchPoint.C81_written_partial`, `WatchIntegral.C82_area`, `WatchIntegral.C82_area_column_missing`, `WatchIntegral.C82_independent_partial`, `WatchIntegral.C82_mixed`, `WatchIntegral.C82_scaled_partial`, `WatchIntegral.C82_unscaled`, `Summation.C83_fewer_undefined`, `Summation.C83_mismatch_rejected`, `Summation.C83_more_ignored`, `Summation.C83_read`, `Summation.C83_sum`, `ScaleByArea.C84_connectivity_required`, `ScaleByArea.C84_integral`, `ScaleByArea.C84_inverse`, `ScaleByArea.C84_isolated_vertex`, `ScaleByArea.C84_partition_dependent`, `ScaleByArea.C84_total`, `UniqueIds.C86_total`, `Edit.C87_data_hint_partial`, `Edit.C87_minimal`, `Edit.C87_symm`, `Edit.C87_tag_hint`, `Edit.C87_triangle`, `Edit.C87_zero_iff`, `Geometry.C88_area2`, `Geometry.C88_area3`, `Geometry.C88_edge`, `Geometry.C88_line_partial`, `Geometry.C88_line_wrong`, `Geometry.C88_normal_zero`, `Geometry.C88_plane`, `Geometry.C88_plane_found`, `Geometry.C88_volume`, `Handshake.C89_agreement`, `Handshake.C90_agreement`, `Handshake.C90_chain_disagrees`, `Handshake.C90_completes`, `Quad.C91_collinear_corners_accepted`, `Quad.C91_no_ub`, `Quad.C91_split`, `Accel.C92_complete`, `Accel.C92_enough_columns`, `Accel.C92_fixed_point`, `Accel.C92_least_squares`, `Accel.C92_residual_in_span`, `Accel.C93_chunks_bounded`, `Accel.C93_exact_jacobian_partial`, `Accel.C93_first_window`, `Accel.C93_fixed_point_partial`, `Accel.C93_idle`, `Accel.C93_improves_partial`, `Accel.C93_kept`, `Accel.C93_least_change`, `Accel.C93_leftover`, `Accel.C93_never_worse`, `Accel.C93_restart_zero`, `Accel.C93_slide`, `Accel.C93_span`, `Accel.C93_stored_always`, `Accel.C93_stored_partial`, `Accel.C93_stored_restart_partial`, `Accel.C93_unique`, `Accel.C93_update_partial`, `MatOps.C94_block`, `MatOps.C94_cyclic`, `MatOps.C94_everywhere`, `MatOps.C94_offsets`, `MatOps.C94_serial`, `Rbf.C95_adjoint`, `Rbf.C95_affine_integrated`, `Rbf.C95_affine_separated`, `Rbf.C95_axes_terminate`, `Rbf.C95_conservative_integrated`, `Rbf.C95_conservative_separated`, `Rbf.C95_constant_separated`, `Rbf.C95_duplicate_error`, `Rbf.C95_interpolates`, `Rbf.C95_numbering`, `Rbf.C95_pointwise`, `Rbf.C95_single_vertex`, `Rbf.C96_conservative`, `Rbf.C96_consistent`, `Rbf.C96_gap`, `Rbf.C96_unowned`, `Pum.C97_adjoint`, `Pum.C97_affine`, `Pum.C97_computes`, `Pum.C97_conserves`, `Pum.C97_constant`, `Pum.C97_edge`, `Pum.C97_interpolates`, `Pum.C97_local`, `Pum.C97_read_as_mesh`, `Pum.C97_read_at`, `Pum.C97_uncovered`, `Pum.C97_unity`, `Pum.C97_value`, `Pum.C97_write_at_partial`, `Pum.C97_write_error`, `Pum.C97_write_lost`, `Basis.C98_beyond`, `Basis.C98_continuous`, `Basis.C98_decreasing`, `Basis.C98_definite`, `Basis.C98_definite_gaussian_partial`, `Basis.C98_definite_spline`, `Basis.C98_gaussian`, `Basis.C98_gaussian_decreasing`, `Basis.C98_gaussian_indefinite`, `Basis.C98_gaussian_jump`, `Basis.C98_load_beyond`, `Basis.C98_positive`, `Basis.C98_power`, `Basis.C98_rejected`, `Basis.C98_smooth`, `Basis.C98_support`, `Basis.C98_zero_radius`, `Pum.C99_computes`, `Pum.C99_covers`, `Pum.C99_no_overlap`, `Pum.C99_one_per_cluster`, `Pum.C99_projection_gap`, `Pum.C99_single`, `Pum.C99_succeeds`, `Pum.C99_useful`, `Coarse.C100_kernel`, `Coarse.C100_local`, `Coarse.C100_normalised`, `Coarse.C100_not_conservative`, `Coarse.C100_order`, `Coarse.C100_smooth`, `Coarse.C100_value`, `Comp.C101_blocking_sends_deadlock`, `Comp.C101_completes`, `Comp.C101_cycle_deadlocks`, `Comp.C101_double_mixes_data`, `Comp.C101_initial_deadlocks`, `Comp.C101_initial_order_matters`, `Comp.C101_mixed_deadlocks`, `Comp.C101_mixed_order_matters`, `Accel.Svd.C102_bounded`, `Accel.Svd.C102_changed_weights`, `Accel.Svd.C102_doubled`, `Accel.Svd.C102_empty_first`, `Accel.Svd.C102_first_update_defined`, `Accel.Svd.C102_rank`, `Accel.Svd.C102_restart`, `Accel.Svd.C102_same_weights_partial`, `Accel.Svd.C102_stored`, `Accel.Svd.C102_update`, `Accel.Svd.C102_update_defined`, `Accel.C103_better_than_zero`, `Accel.C103_bounded`, `Accel.C103_columns`, `Accel.C103_defined`, `Accel.C103_dependent`, `Accel.C103_restart`, `Accel.C103_small_interface`, `Accel.C103_smallest`, `Accel.C103_trim_defined`, `DataPath.C104_ahead_partial`, `DataPath.C104_behind`, `DataPath.C104_next_window_partial`, `DataPath.C104_stamp`, `DataPath.C104_stamp_unlimited`, `DataPath.C104_truncated_fails`, `DataPath.C104_truncated_wrong`, `DataPath.C104_unannounced_initial_data`, `DataPath.C104_window_end`, `TimeGrid.C105_constant`, `TimeGrid.C105_covers`, `TimeGrid.C105_gathered`, `TimeGrid.C105_inside`, `TimeGrid.C105_reduced`, `TimeGrid.C105_round_trip`, `TimeGrid.C105_same_steps`, `TimeGrid.C105_stored`, `TimeGrid.C105_times`, `TimeGrid.C105_tiny_window`, `TimeGrid.C105_unchanged`, `Config.C106_blank`, `Config.C106_comma`, `Config.C106_decimal`, `Config.C106_decimal_accepted_partial`, `Config.C106_fraction`, `Config.C106_vector`, `Config.C106_wrong`, `Config.C107_accepts`, `Config.C107_leftover`, `Config.C107_rejects`, `Config.C107_state_free`, `Config.Scheme.C108_many`, `Config.Scheme.C108_many_accepts`, `Config.Scheme.C108_many_unchecked`, `Config.Scheme.C108_two`, `Config.Scheme.C108_two_accepts`, `Config.Scheme.C108_two_no_assert`, `Config.Scheme.C109_accepts`, `Config.Scheme.C109_configured`, `Config.Scheme.C109_endless_accepted`, `Config.Scheme.C109_missing_link`, `Config.Scheme.C109_no_assert`, `Config.Scheme.C109_one_implicit`, `Config.Scheme.C109_order`, `Config.Scheme.C109_strict_unlimited`, `Config.Scheme.C109_unlimited`, `Startup.C110_finalize`, `Startup.C110_initialize`, `Startup.C110_mismatch`, `Startup.C110_not_provided`, `Startup.C110_run`, `Startup.C110_self_link`, `Startup.C110_two_level_checked`, `Waveform.C111_after`, `Waveform.C111_before`, `Waveform.C111_linear`, `Waveform.C111_polynomial`, `Waveform.C111_weights`, `Access.C112_direct`, `Access.C112_direct_serial`, `Access.C112_empty_buffers`, `Access.C112_point_region_serial`, `Access.C112_points_partial`, `Access.C112_read`, `Access.C112_set_region`, `Access.C112_too_few_coordinates`, `Access.C112_write`, `Repartition.C112_repartition`, `Mapping.C113_cell`, `Mapping.C113_cell_write`, `Mapping.C113_nn_read`, `Mapping.C113_nn_same`, `Mapping.C113_nn_write`, `Mapping.C113_out_of_reach`, `Mapping.C113_projection_2d`, `Mapping.C113_projection_2d_write`, `Mapping.C113_reach_margin`, `Mapping.C113_reach_no_filter`, `Mapping.C113_single_vertex`, `Mapping.C113_single_vertex_error`, `Mapping.Example.C113_far`, `Mapping.Example.C113_projection_3d_partial`, `Rbf.C114_clusters`, `Rbf.C114_clusters_single`, `Rbf.C114_compact_spline`, `Rbf.C114_definite`, `Rbf.C114_gaussian_partial`, `Rbf.C114_gaussian_refused`, `Rbf.C114_integrated`, `Rbf.C114_integrated_refused`, `Rbf.C114_multiquadrics`, `Rbf.C114_single`, `Rbf.C114_thin_plate_integrated`, `Rbf.C114_thin_plate_refused`, `Rbf.C114_volume`, `Mapping.C115_lost`, `Mapping.C115_needed_global`, `Mapping.C115_needed_support`, `Mapping.C115_read`, `Mapping.C115_write`, `TwoLevelInit.C116_connect`, `TwoLevelInit.C116_empty_rank_waits`, `TwoLevelInit.C116_initialized`, `TwoLevelInit.C116_link`, `TwoLevelInit.C116_maps`, `TwoLevelInit.C116_no_filter_differs`, `TwoLevelInit.C116_no_overlap`, `TwoLevelInit.C116_repartition`, `TwoLevelInit.C116_same_as_one_level`, `Export.C117_files`, `Export.C117_iteration_series`, `Export.C117_nothing_else`, `Export.C117_series`, `Export.Examples.C117_compositional_overwrites`, `Export.Examples.C117_iteration_written_data`, `Export.Examples.C117_names_collide`, `Export.C118_csv`, `Export.C118_csv_ambiguous`, `Export.C118_digits_merge`, `Export.C118_names_ambiguous`, `Export.C118_six_digits`, `Export.C118_vtk_drops_triangles`, `Export.C118_vtk_partial`, `Export.C118_vtp_drops_tetrahedra`, `Export.C118_vtp_partial`, `Export.C118_vtu`, `Config.Part.C119_accepts`, `Config.Part.C119_direct_write_and_mapping`, `Config.Part.C119_just_in_time_without_data`, `Config.Part.C119_read_once`, `Config.Part.C119_useful`, `Config.Part.C119_write_targets`, `Mapping.C120_affine`, `Mapping.C120_inside`, `Mapping.C120_missed_2d`, `Mapping.C120_moments`, `Mapping.C120_tetrahedra`, `Mapping.C120_triangles`, `Log.C121_always_written`, `Log.C121_convergence_log`, `Log.C121_files`, `Log.C121_flag_at_max`, `Log.C121_flag_partial`, `Log.C121_iterations_log`, `Log.C121_remeshing_deletes`, `Log.C121_total_is_sum`, `Log.C121_transparent`, `DataPath.C122_end_once`, `DataPath.C122_read`, `DataPath.C122_read_once_partial`, `DataPath.C122_read_wrong`, `DataPath.C122_second_wrong`, `DataPath.C122_sent`, `DataPath.C122_sent_once_partial`, `DataPath.C122_sent_wrong`, `DataPath.C122_start_read_again`, `DataPath.C122_start_sent_again`, `Config.Accel.C123_accepted`, `Config.Accel.C123_aitken_preconditioner`, `Config.Accel.C123_configure_partial`, `Config.Accel.C123_default_truncation`, `Config.Accel.C123_once`, `Config.Accel.C123_one_acceleration`, `Config.Act.C124_configure_partial`, `Config.Act.C124_perform`, `Config.Act.C124_perform_target`, `Config.Act.C124_python_target`, `Config.Conn.C125_accepted`, `Config.Conn.C125_connections`, `Config.Conn.C125_matching_partial`, `Config.Conn.C125_mesh_partial`, `Config.Conn.C125_meshes`, `Config.Conn.C125_orphan`, `Config.Conn.C125_self`, `Config.MapMethod.C126_accepts_partial`, `Config.MapMethod.C126_alias_differs`, `Config.MapMethod.C126_alias_ignores_dead`, `Config.MapMethod.C126_any_multiquadrics`, `Config.MapMethod.C126_clusters_asserted`, `Config.MapMethod.C126_coarse_graining`, `Config.MapMethod.C126_device`, `Config.MapMethod.C126_device_text`, `Config.MapMethod.C126_gaussian_radius`, `Config.MapMethod.C126_independent`, `Config.MapMethod.C126_last_executor`, `Config.MapMethod.C126_methods_partial`, `Config.MapMethod.C126_negative_vertices`, `Config.MapMethod.C126_zero_radius`, `PetRbf.C127_conservative_partial`, `PetRbf.C127_conserves_partial`, `PetRbf.C127_consistent_partial`, `PetRbf.C127_dead_axis`, `PetRbf.C127_distribution_partial`, `PetRbf.C127_flat`, `PetRbf.C127_halo`, `PetRbf.C127_rescaled`, `PetRbf.C127_separated_affine_partial`, `PetRbf.C127_separated_interpolates_partial`, `PetRbf.C127_separated_partial`, `PetRbf.C127_small_constant`, `PetRbf.C127_small_loads`, `Batched.C128_affine_partial`, `Batched.C128_conservative`, `Batched.C128_duplicate`, `Batched.C128_empty_rank`, `Batched.C128_executor_partial`, `Batched.C128_flat`, `Batched.C128_interpolates_partial`, `Batched.C128_race`, `Batched.C128_single_thread`, `Batched.C128_unity`, `Config.Dataset.C129_accepts`, `Config.Dataset.C129_bounds`, `Config.Dataset.C129_describes_partial`, `Config.Dataset.C129_duplicate_mesh`, `Config.Dataset.C129_ids`, `Config.Dataset.C129_lookup`, `Config.Dataset.C129_vector_bounds`, `Profiling.C130_advance_null`, `Profiling.C130_errors`, `Profiling.C130_lost`, `Profiling.C130_memory`, `Profiling.C130_nested_partial`, `Profiling.C130_not_direct`, `Profiling.C130_off`, `Profiling.C130_second`, `Profiling.C130_times`, `Profiling.C130_told_partial`, `Profiling.C130_unstopped`, `Bindings.C131_c_partial`, `Bindings.C131_create`, `Bindings.C131_fortran_partial`, `Bindings.C131_program_fortran_partial`, `Bindings.C131_program_partial`, `Bindings.C131_replaced`, `Bindings.C131_same`, `Logging.C132_all_disabled`, `Logging.C132_default`, `Logging.C132_not_disabled`, `Logging.C132_rank`, `Logging.C132_records_partial`, `Logging.C132_text_partial`, `Logging.C132_warning`, `Mpi.C133_accepts`, `Mpi.C133_application`, `Mpi.C133_check_failed`, `Mpi.C133_failed`, `Mpi.C133_two`, `Remesh.C134_end`, `Remesh.C134_lost`, `Remesh.C134_repeat`, `Remesh.C134_sender`, `Remesh.C134_sizes`, `Remesh.C134_start_partial`, `Remesh.C134_window`, `Remesh.C134_zero`, `Remesh.C134_zero_start`, `Ports.C135_no_deadlock`, `Ports.C135_right`, `Ports.C135_single_partial`, `Ports.C135_terminates`, `Doc.C136_dtd_rejects_accepted`, `Doc.C136_links_partial`, `Doc.C136_links_third`
