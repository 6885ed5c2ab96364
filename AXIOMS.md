# Axioms per theorem

Generated by `tools/axioms.py` from `#print axioms`. Every theorem of MANIFEST.json is listed once.

## `Quot.sound`, `propext` (18 theorems)

`PK.C93_moved`, `PK.C93_constructed`, `PK.C93_fk`, `PK.C93_data`, `PK.C93_backward`, `PK.C93_jacobian`, `PK.C93_moved_serial`, `PK.C94_location_tensor_fails`, `PK.C95_device_fails`, `PK.C95_dtype_fails`, `PK.C95_serial_partial`, `PK.C95_serial_fails`, `PK.C96_solve_partial`, `PK.C96_uniform`, `PK.C96_gaussian_fails`, `PK.C96_limits_fails`, `PK.C96_target_fails`, `PK.C121_same_shape`

## `Classical.choice`, `Quot.sound`, `propext` (620 theorems)

`PK.C01_fk_is_path_product`, `PK.C01_paths_cover`, `PK.C02_fk_rigid`, `PK.C02_constructor_normalises_axis`, `PK.C03_fk_rowwise`, `PK.C03_single_row`, `PK.C04_subset_agrees`, `PK.C04_unknown_name`, `PK.C05_only_descendants_move`, `PK.C06_revolute_periodic`, `PK.C07_columns`, `PK.C07_limits`, `PK.C08_dict_to_tensor`, `PK.C08_dict_fk`, `PK.C08_insertion_order`, `PK.C08_empty_dict_raises`, `PK.C09_bad_dict_raises`, `PK.C09_empty_batch_unnoticed`, `PK.C10_wrong_width_raises_partial`, `PK.C10_one_column_is_broadcast`, `PK.C10_fails_one_column`, `PK.C10_no_joints_accepts_anything`, `PK.C11_bijection`, `PK.C11_topological`, `PK.C11_parents_indices`, `PK.C12_listings`, `PK.C12_lookups`, `PK.C12_find_frame`, `PK.C13_get_joints_partial`, `PK.C13_fails_fixed_joint`, `PK.C13_fails_root_joint`, `PK.C14_joints_and_child_links`, `PK.C15_clamp`, `PK.C15_idempotent`, `PK.C16_backward_is_gradient`, `PK.C17_jacobian_is_derivative`, `PK.C18_tool_jacobian`, `PK.C19_relative_poses`, `PK.C20_frames_and_joints`, `PK.C20_construction_outcome`, `PK.C21_too_few_values_partial`, `PK.C21_number_dict_raises`, `PK.C21_fails_nested_list`, `PK.C22_urdf_tree`, `PK.C22_usable`, `PK.C22_joint_names`, `PK.C22_document`, `PK.C23_origin`, `PK.C23_child_pose`, `PK.C24_loads_partial`, `PK.C24_single_link_fails`, `PK.C24_other_types_fail`, `PK.C25_declared_axis_partial`, `PK.C25_default_axis_fails`, `PK.C26_limits_partial`, `PK.C26_continuous_fails`, `PK.Sdf.C27_sdf_tree`, `PK.Sdf.C27_zero_pose`, `PK.Sdf.C27_child_pose`, `PK.Sdf.C27_usable`, `PK.Sdf.C27_joint_names`, `PK.Sdf.C27_document`, `PK.Sdf.C28_conversion`, `PK.Sdf.C28_pose_partial`, `PK.Sdf.C28_fails`, `PK.Mjcf.C29_mjcf_tree`, `PK.Mjcf.C29_usable`, `PK.Mjcf.C29_pose_partial`, `PK.Mjcf.C29_joint_names`, `PK.Mjcf.C29_child_pose`, `PK.Mjcf.C29_fails`, `PK.C30_transform_points`, `PK.C30_transform_points_flat`, `PK.C30_compose_is_function_composition`, `PK.C30_compose_assoc`, `PK.C30_compose_identity`, `PK.C31_inverse_partial`, `PK.C31_translate`, `PK.C31_scale`, `PK.C31_rotate`, `PK.C31_fails_scaled`, `PK.C31_fails_clone`, `PK.C32_compose_sizes`, `PK.C32_points_sizes`, `PK.C32_stack_concatenates`, `PK.C32_stack_transform_points`, `PK.C32_stack_index`, `PK.C33_normals_keep_tangents`, `PK.C33_normals_rotate`, `PK.C33_fails_scaled`, `PK.C34_assembles_partial`, `PK.C34_accepted_sizes`, `PK.C34_batched_pos_single_rot_fails`, `PK.C34_three_euler_triples_fails`, `PK.C35_quaternion_to_matrix_is_rotation`, `PK.C35_quaternion_to_matrix_is_conjugation`, `PK.C35_quaternion_to_matrix_scale_invariant`, `PK.C35_quaternion_to_matrix_neg`, `PK.C35_quaternion_to_matrix_mul`, `PK.C36_raw_multiply_is_hamilton`, `PK.C36_standardize`, `PK.C36_multiply`, `PK.C36_invert`, `PK.C36_apply`, `PK.C36_xyzw_wxyz_roundtrip`, `PK.C36_xyzw_real_part_last`, `PK.C37_matrix_to_quaternion_roundtrip`, `PK.C37_quaternion_roundtrip`, `PK.C38_axis_angle_roundtrip`, `PK.C38_axis_angle_to_matrix`, `PK.C38_axis_angle_to_matrix_zero`, `PK.C38_quaternion_roundtrip`, `PK.C38_matrix_roundtrip`, `PK.C39_is_rodrigues`, `PK.C39_is_rotation`, `PK.C39_one_parameter_group`, `PK.C39_angle`, `PK.C39_matrix44`, `PK.C39_prismatic`, `PK.C40_euler_angles_to_matrix`, `PK.C40_matrix_roundtrip_partial`, `PK.C40_angles_roundtrip`, `PK.C40_gimbal_lock_fails`, `PK.C40_invalid_convention`, `PK.C41_quaternion_from_euler`, `PK.C41_unknown_axes`, `PK.C42_rotation_6d_is_rotation`, `PK.C42_tiny_input_fails`, `PK.C42_rotation_6d_roundtrip`, `PK.C42_se3_9d_roundtrip`, `PK.C42_pos_rot_roundtrip`, `PK.C43_hat`, `PK.C43_hat_inv_rejects`, `PK.C43_exp_is_rotation`, `PK.C43_log_exp_partial`, `PK.C43_exp_log_partial`, `PK.C43_log_half_turn_fails`, `PK.C43_relative_angle`, `PK.C43_trace_rejected`, `PK.C44_errors`, `PK.C44_extends_acos`, `PK.C45_angular_distance_partial`, `PK.C45_angular_distance_error`, `PK.C45_batch_dependent`, `PK.C46_slerp_partial`, `PK.C46_lerp_branch`, `PK.C46_identical_pair_nan`, `PK.C46_lerp_not_unit`, `PK.C47_quaternion_from_euler_partial`, `PK.C47_quaternion_from_euler_mutates`, `PK.C47_slerp_partial`, `PK.C47_slerp_mutates`, `PK.C48_rigid`, `PK.C48_noise`, `PK.C48_noise_random_axis`, `PK.C49_sticky`, `PK.C50_flags_partial`, `PK.C50_fails_pos_any`, `PK.C50_fails_witness`, `PK.C51_converged_reaches_target`, `PK.C52_within_limits`, `PK.C53_numeric_partial`, `PK.C53_fails_unlimited`, `PK.C53_fails_unconverged`, `PK.C54_system_solvable`, `PK.C54_step_minimises`, `PK.C55_svd_step_partial`, `PK.C55_fails_few_joints`, `PK.C56_first_sufficient_step`, `PK.C57_stopping_partial`, `PK.C57_fails_all`, `PK.C57_fails_any`, `PK.C57_ratio_equivalents_partial`, `PK.C57_fails_many_retries`, `PK.C58_delta_pose`, `PK.C58_zero_iff`, `PK.C59_batch_keeps_solutions`, `PK.C60_terminates`, `PK.C61_wrap`, `PK.C61_wrap_keeps_pose`, `PK.C62_start_rows_partial`, `PK.C62_fails_batched`, `PK.C62_square_batch`, `PK.C63_device_partial`, `PK.C63_fails`, `PK.C64_print_tree`, `PK.C65_random_quaternion`, `PK.C65_random_rotation`, `PK.C66_same_values_partial`, `PK.C66_fails_jacobian_dict`, `PK.C67_builders_apply_last_first_partial`, `PK.C67_documented_order_fails`, `PK.C68_to_partial`, `PK.C68_attributes_consistent`, `PK.C68_subclass_dtype_fails`, `PK.C69_shape_operator_partial`, `PK.C69_four_dim_fails`, `PK.C70_rotate_axis_angle`, `PK.C70_counter_clockwise`, `PK.C70_rejects`, `PK.C71_coordinates`, `PK.C71_tensor_and_singleton`, `PK.C72_errors_of_solution`, `PK.C73_queries_partial`, `PK.C73_fk_partial`, `PK.C73_fails_names`, `PK.C73_fails_indices`, `PK.C74_velocity_effort`, `PK.C75_mimic_partial`, `PK.C75_fails`, `PK.C76_urdf_format`, `PK.C76_sdf_format`, `PK.Mjcf.C77_serial_mjcf`, `PK.Sdf.C77_serial_sdf`, `PK.C77_serial_urdf`, `PK.Sdf.C78_joint_pose_partial`, `PK.Sdf.C78_fails`, `PK.Sdf.C79_loads_partial`, `PK.Sdf.C79_no_inertial_fails`, `PK.Sdf.C79_no_axis_fails`, `PK.Sdf.C79_single_link_fails`, `PK.Sdf.C79_world_fails`, `PK.Sdf.C79_mesh_uri_fails`, `PK.Sdf.C80_limits_partial`, `PK.Sdf.C80_one_bound_fails`, `PK.Mjcf.C81_limits_partial`, `PK.Mjcf.C81_fails`, `PK.Mjcf.C82_loads_partial`, `PK.Mjcf.C82_loads_iff`, `PK.Mjcf.C82_fails`, `PK.Mjcf.C83_body_argument`, `PK.Mjcf.C84_all_elements_partial`, `PK.Mjcf.C84_fails`, `PK.C85_get_transform`, `PK.C86_joint_clamp`, `PK.C87_start_kept`, `PK.C87_exact_start`, `PK.C88_reuse`, `PK.C89_uniform_within_limits`, `PK.C89_gaussian_around`, `PK.C89_constructor_errors`, `PK.C89_start_of_samples`, `PK.C89_uniform_common_limits`, `PK.C90_velocity`, `PK.C91_descent`, `PK.C92_turned_cylinder`, `PK.Urdf.C92_urdf_partial`, `PK.Urdf.C92_urdf_fails`, `PK.Sdf.C92_sdf_partial`, `PK.Sdf.C92_sdf_scale_fails`, `PK.Sdf.C92_sdf_pose_fails`, `PK.Mjcf.C92_mjcf_geoms`, `PK.Mjcf.C92_mjcf_type_fails`, `PK.C94_locations_partial`, `PK.C97_independent_partial`, `PK.C97_to_copy_partial`, `PK.C97_get_matrix`, `PK.C97_of_matrix`, `PK.C97_item`, `PK.C97_to_copy_fails`, `PK.C97_compose_fails`, `PK.C97_values`, `PK.C97_slice`, `PK.C97_list`, `PK.C98_source_unchanged`, `PK.C98_source_kept`, `PK.C98_serial_kept`, `PK.C98_value`, `PK.C98_raises`, `PK.C99_random_rotations_uniform`, `PK.C99_uniform_rotation_unique`, `PK.C100_random_axis`, `PK.C100_given_axis`, `PK.C100_given_axis_perpendicular`, `PK.C100_uniform_direction_unique`, `PK.C101_uniform`, `PK.C101_gaussian`, `PK.C101_gaussian_around`, `PK.C102_rounding`, `PK.C102_linear`, `PK.C102_precision`, `PK.Urdf.C103_urdf_joint_types`, `PK.Sdf.C103_sdf_joint_types`, `PK.Urdf.C103_urdf_rejects`, `PK.Urdf.C103_urdf_accepts`, `PK.Sdf.C103_sdf_rejects`, `PK.Sdf.C103_sdf_accepts`, `PK.Urdf.C104_urdf_defaults`, `PK.Sdf.C104_sdf_defaults`, `PK.Urdf.C105_urdf_partial`, `PK.Urdf.C105_urdf_no_root`, `PK.Urdf.C105_forest_fails`, `PK.Urdf.C105_two_parents_fails`, `PK.Urdf.C105_unknown_parent_fails`, `PK.Sdf.C105_sdf_partial`, `PK.Sdf.C105_sdf_no_root`, `PK.C106_accepted_partial`, `PK.C106_missing_joint_fails`, `PK.C107_local_convergence`, `PK.C107_enforced`, `PK.C108_gradient`, `PK.C108_smooth`, `PK.C108_second_order_partial`, `PK.C108_second_order_stationary`, `PK.C108_jacobian_gradient`, `PK.C108_second_order_prismatic`, `PK.C108_second_order_fails`, `PK.C109_reach`, `PK.C109_converged_reachable`, `PK.C109_unreachable`, `PK.C109_unreachable_limits`, `PK.C110_serial`, `PK.C110_tree`, `PK.C110_revolute`, `PK.C111_written_robot_loads_same`, `PK.C111_round_trip_partial`, `PK.C111_write_pure_partial`, `PK.C111_gazebo_text_lost`, `PK.C111_second_write_differs`, `PK.C112_round_trip_partial`, `PK.C112_empty_flag_changes`, `PK.C112_flag_text_ignored`, `PK.C113_get_root`, `PK.C113_get_chain`, `PK.C113_get_chain_error`, `PK.C113_agrees`, `PK.C113_cycle_runs_forever`, `PK.C114_jacobian`, `PK.C114_tool`, `PK.C114_precision`, `PK.C115_matrix_to_quaternion`, `PK.C115_quaternion_to_matrix`, `PK.C115_round_trip`, `PK.C116_errors`, `PK.C116_converged`, `PK.C116_within_limits`, `PK.C116_precision`, `PK.C117_quaternion_to_matrix`, `PK.C117_axis_and_angle_to_matrix_33`, `PK.C117_matrix_to_quaternion_partial`, `PK.C117_fails_matrix_to_quaternion`, `PK.C117_fails_sqrt_positive_part`, `PK.C117_fails_revolute_joint`, `PK.C117_quaternion_to_axis_angle_partial`, `PK.C117_fails_quaternion_to_axis_angle`, `PK.C117_fails_matrix_to_axis_angle`, `PK.C117_axis_angle_to_quaternion_partial`, `PK.C117_fails_axis_angle_to_quaternion`, `PK.C117_acos_linear_extrapolation`, `PK.C117_quaternion_angular_distance_partial`, `PK.C117_fails_quaternion_angular_distance`, `PK.C118_gradient`, `PK.C118_offsets`, `PK.C118_agrees`, `PK.C118_loss`, `PK.C118_second_order`, `PK.C118_second_order_arm`, `PK.C118_every_order`, `PK.C119_exp_map`, `PK.C119_rotation_angle`, `PK.C119_relative_angle`, `PK.C119_log_map`, `PK.C119_log_map_identity`, `PK.C119_rotation_angle_unbounded`, `PK.C120_points`, `PK.C120_normals`, `PK.C120_matrix`, `PK.C120_methods`, `PK.C120_shared_translation`, `PK.C121_quaternion_to_matrix`, `PK.C121_matrix_to_quaternion`, `PK.C121_axis_angle_to_quaternion`, `PK.C121_quaternion_to_axis_angle`, `PK.C121_axis_angle_to_matrix`, `PK.C121_matrix_to_axis_angle`, `PK.C121_euler_angles_to_matrix`, `PK.C121_matrix_to_euler_angles`, `PK.C121_quaternion_from_euler`, `PK.C121_standardize_quaternion`, `PK.C121_quaternion_invert`, `PK.C121_random_quaternions`, `PK.C121_component_order`, `PK.C121_rotation_6d`, `PK.C121_se3_9d`, `PK.C121_pos_rot`, `PK.C121_quaternion_multiply`, `PK.C121_quaternion_apply`, `PK.C121_axis_and_angle_to_matrix_33`, `PK.C121_joint_matrices`, `PK.C121_rejects`, `PK.C122_forward`, `PK.C122_poses_by_name`, `PK.C122_one_row`, `PK.C122_gradient_partial`, `PK.C122_fails_empty_batch`, `PK.C122_gradient_row_alone`, `PK.C122_jacobian`, `PK.C122_jacobian_tool`, `PK.C122_jacobian_one_row`, `PK.C123_delta_pose`, `PK.C123_delta_pose_geometry`, `PK.C123_kernel`, `PK.C123_kernel_svd`, `PK.C123_kernel_svd_few_joints`, `PK.C123_kernel_no_retries`, `PK.C123_start`, `PK.C123_start_invalid`, `PK.C123_solve`, `PK.C123_converged_reaches_target`, `PK.C123_errors_of_solution`, `PK.C123_within_limits`, `PK.C123_batch_keeps_solutions`, `PK.C123_no_retries`, `PK.C123_no_joints`, `PK.C124_compose`, `PK.C124_compose_sizes`, `PK.C124_compose_devices`, `PK.C124_compose_list`, `PK.C124_inverse`, `PK.C124_points`, `PK.C124_points_projective`, `PK.C124_points_eps`, `PK.C124_points_flat`, `PK.C124_points_rank`, `PK.C124_points_sizes`, `PK.C124_points_devices`, `PK.C124_normals`, `PK.C124_normals_flat`, `PK.C124_normals_dual`, `PK.C124_shape_operator`, `PK.C124_shape_operator_batched`, `PK.C124_stack`, `PK.C124_stack_devices`, `PK.C124_getitem_int`, `PK.C124_getitem_slice`, `PK.C124_getitem_idx`, `PK.C124_translate`, `PK.C124_scale`, `PK.C124_coords_sizes`, `PK.C124_coords_columns`, `PK.C124_translate_single`, `PK.C124_rotate`, `PK.C124_rotate_converts`, `PK.C124_rotate_axis_angle`, `PK.C124_rotate_axis_angle_axis`, `PK.C124_method_translate`, `PK.C124_method_scale`, `PK.C124_method_rotate`, `PK.C124_method_rotate_axis_angle`, `PK.C124_to`, `PK.C124_clone`, `PK.C124_init_matrix`, `PK.C124_init_matrix_flat`, `PK.C124_init_matrix_refused`, `PK.C124_init_identity`, `PK.C124_init_pos`, `PK.C124_init_rot`, `PK.C124_init_pos_rot`, `PK.C125_builders_partial`, `PK.C125_fails_builders`, `PK.C125_position_list_partial`, `PK.C125_fails_position_list`, `PK.C125_fails_rotate_axis_angle`, `PK.C125_points_partial`, `PK.C125_integer_points`, `PK.C125_fails_integer_points`, `PK.C126_urdf`, `PK.C126_sdf`, `PK.C126_mjcf`, `PK.C126_positions_partial`, `PK.C126_fails`, `PK.C127_angular_distance`, `PK.C127_acos`, `PK.C127_slerp_partial`, `PK.C127_lerp`, `PK.C127_single_pair_fails`, `PK.C127_grid_fails`, `PK.C127_grid4`, `PK.C127_grid4_wrong`, `PK.C127_one_target_fails`, `PK.C127_one_target4_wrong`, `PK.C127_steps_fail`, `PK.C128_hat`, `PK.C128_hat_inv`, `PK.C128_exp`, `PK.C128_log_exp_partial`, `PK.C128_exp_log_partial`, `PK.C128_relative_angle`, `PK.C128_rotation_angle`, `PK.C128_shapes`, `PK.C128_log_half_turn_fails`, `PK.C128_log_empty_fails`, `PK.C128_relative_shape_fails`, `PK.C128_relative_accepts`, `PK.C129_axis`, `PK.C129_random_axis`, `PK.C129_sizes`, `PK.C130_quaternion_raw_multiply`, `PK.C130_quaternion_invert`, `PK.C130_quaternion_apply`, `PK.C130_quaternion_multiply`, `PK.C130_standardize_quaternion`, `PK.C130_euler_angles_to_matrix`, `PK.C130_refused`, `PK.C130_matrix_to_euler_angles_partial`, `PK.C130_fails_gimbal_lock`, `PK.C130_rotation_6d_to_matrix`, `PK.C130_rotation_6d_zero`, `PK.C130_se3_9d_to_matrix44`, `PK.C130_pos_rot_to_matrix`, `PK.C131_angular_distance`, `PK.C131_acos`, `PK.C131_fill_matrix`, `PK.C131_inverse`, `PK.C131_fk`, `PK.C131_jacobian_tool`, `PK.C131_perturbations_partial`, `PK.C131_slerp_partial`, `PK.C131_fails_slerp_leaf`, `PK.C131_fails_slerp_backward`, `PK.C131_fails_slerp_other`, `PK.C131_fails_perturbation_axis`, `PK.C131_fails_from_euler`, `PK.C131_from_euler`, `PK.C131_fails_from_euler_other`, `PK.C132_inverse`, `PK.C132_compose`, `PK.C132_pipeline`, `PK.C132_cancels`, `PK.C132_linear`, `PK.C132_points`, `PK.C132_points_flat`, `PK.C132_round_trip`, `PK.C132_sequential`, `PK.C132_normals`, `PK.C132_pose`, `PK.C132_translate`, `PK.C132_rotate_axis_angle`, `PK.C132_precision`, `PK.C133_finite`, `PK.C133_formats`, `PK.C133_isolated`, `PK.C133_visible`, `PK.C134_error_visible`, `PK.C134_converged`, `PK.C134_nan_start`, `PK.C134_others`, `PK.C134_returns_partial`, `PK.C134_fails_svd`, `PK.C135_load`, `PK.C135_end_to_end`, `PK.C135_posed`, `PK.C135_from_euler`, `PK.C135_single`, `PK.Sdf.C136_sdf_load`, `PK.Sdf.C136_sdf_posed`, `PK.Sdf.C136_sdf_zero`, `PK.Sdf.C136_sdf`, `PK.Sdf.C136_sdf_visual`, `PK.Mjcf.C136_mjcf_posed`, `PK.Mjcf.C136_mjcf_placed`, `PK.Mjcf.C136_mjcf`, `PK.Mjcf.C136_mjcf_geoms`, `PK.Mjcf.C136_mjcf_load`, `PK.Mjcf.C136_mjcf_single`, `PK.Sdf.C136_sdf_single`, `PK.C137_rounding`, `PK.C137_precision`, `PK.C138_rows`, `PK.C138_spreads`, `PK.C138_joint_spreads`, `PK.C138_branches_partial`, `PK.C138_finite`, `PK.C138_fails`, `PK.C139_exp`, `PK.C139_precision`, `PK.C140_log`, `PK.C140_round_trip`, `PK.C140_precision`, `PK.C141_rotation_6d`, `PK.C141_every_pair`, `PK.C141_round_trip`, `PK.C141_precision`, `PK.C142_quaternion`, `PK.C142_matrix`, `PK.C142_rotation_vector`, `PK.C142_round_trip`, `PK.C142_precision`, `PK.C142_round_trip_precision`, `PK.C143_apply`, `PK.C143_rotation_vector`, `PK.C143_precision`, `PK.C144_distance`, `PK.C144_close`, `PK.C144_precision`, `PK.C144_no_nan`, `PK.C144_every_pair`, `PK.C144_every_batch`, `PK.C144_every_pair_precision`, `PK.C145_arc`, `PK.C145_slerp`, `PK.C145_linear`, `PK.C145_precision`, `PK.C146_acos`, `PK.C146_precision`, `PK.C147_cosine`, `PK.C147_angle`, `PK.C147_precision`, `PK.C147_half_turn`, `PK.C147_every_pair`, `PK.C147_every_pair_float32`, `PK.C147_self_not_zero`, `PK.C147_rejects`, `PK.C147_rejects_cases`, `PK.C148_no_false_alarm`, `PK.C148_silent`, `PK.C148_reflection_warns`, `PK.C148_scaled_warns`, `PK.C148_compiling_silent`, `PK.C148_float32`
