{
 "claims": [
  {
   "property": "C01",
   "status": "proved",
   "theorems": [
    "PK.C01_fk_is_path_product",
    "PK.C01_paths_cover"
   ],
   "note": "frame names additionally must not begin or end with a newline (the constructor strips them)"
  },
  {
   "property": "C02",
   "status": "proved",
   "theorems": [
    "PK.C02_fk_rigid",
    "PK.C02_constructor_normalises_axis"
   ],
   "note": ""
  },
  {
   "property": "C03",
   "status": "proved",
   "theorems": [
    "PK.C03_fk_rowwise",
    "PK.C03_single_row"
   ],
   "note": ""
  },
  {
   "property": "C04",
   "status": "proved",
   "theorems": [
    "PK.C04_subset_agrees",
    "PK.C04_unknown_name"
   ],
   "note": ""
  },
  {
   "property": "C05",
   "status": "proved",
   "theorems": [
    "PK.C05_only_descendants_move"
   ],
   "note": ""
  },
  {
   "property": "C06",
   "status": "proved",
   "theorems": [
    "PK.C06_revolute_periodic"
   ],
   "note": ""
  },
  {
   "property": "C07",
   "status": "proved",
   "theorems": [
    "PK.C07_columns",
    "PK.C07_limits"
   ],
   "note": ""
  },
  {
   "property": "C08",
   "status": "proved",
   "theorems": [
    "PK.C08_dict_to_tensor",
    "PK.C08_dict_fk",
    "PK.C08_insertion_order",
    "PK.C08_empty_dict_raises"
   ],
   "note": "for chains with at least one moving joint; the empty dict on a jointless chain raises IndexError (C08_empty_dict_raises)"
  },
  {
   "property": "C09",
   "status": "proved",
   "theorems": [
    "PK.C09_bad_dict_raises",
    "PK.C09_empty_batch_unnoticed"
   ],
   "note": "for a non-empty batch; with B = 0 a missing joint goes unnoticed (C09_empty_batch_unnoticed)"
  },
  {
   "property": "C10",
   "status": "partial",
   "theorems": [
    "PK.C10_wrong_width_raises_partial",
    "PK.C10_one_column_is_broadcast",
    "PK.C10_fails_one_column",
    "PK.C10_no_joints_accepts_anything"
   ],
   "note": "false for one-column tensors (broadcast) and for chains without moving joints; proved for all other widths"
  },
  {
   "property": "C11",
   "status": "proved",
   "theorems": [
    "PK.C11_bijection",
    "PK.C11_topological",
    "PK.C11_parents_indices"
   ],
   "note": ""
  },
  {
   "property": "C12",
   "status": "proved",
   "theorems": [
    "PK.C12_listings",
    "PK.C12_lookups",
    "PK.C12_find_frame"
   ],
   "note": ""
  },
  {
   "property": "C13",
   "status": "partial",
   "theorems": [
    "PK.C13_get_joints_partial",
    "PK.C13_fails_fixed_joint",
    "PK.C13_fails_root_joint"
   ],
   "note": "false: exclude_fixed=False never returns fixed joints and drops the root's joint; proved: it returns the moving joints below the root"
  },
  {
   "property": "C14",
   "status": "proved",
   "theorems": [
    "PK.C14_joints_and_child_links"
   ],
   "note": ""
  },
  {
   "property": "C15",
   "status": "proved",
   "theorems": [
    "PK.C15_clamp",
    "PK.C15_idempotent"
   ],
   "note": ""
  },
  {
   "property": "C16",
   "status": "proved",
   "theorems": [
    "PK.C16_backward_is_gradient"
   ],
   "note": ""
  },
  {
   "property": "C17",
   "status": "proved",
   "theorems": [
    "PK.C17_jacobian_is_derivative"
   ],
   "note": ""
  },
  {
   "property": "C18",
   "status": "proved",
   "theorems": [
    "PK.C18_tool_jacobian"
   ],
   "note": "tool matrices are affine (last row 0 0 0 1)"
  },
  {
   "property": "C19",
   "status": "proved",
   "theorems": [
    "PK.C19_relative_poses"
   ],
   "note": ""
  },
  {
   "property": "C20",
   "status": "proved",
   "theorems": [
    "PK.C20_frames_and_joints",
    "PK.C20_construction_outcome"
   ],
   "note": ""
  },
  {
   "property": "C21",
   "status": "partial",
   "theorems": [
    "PK.C21_too_few_values_partial",
    "PK.C21_number_dict_raises",
    "PK.C21_fails_nested_list"
   ],
   "note": "proved for tensors, arrays, flat lists and non-empty dicts of batched values; false for nested lists (C21_fails_nested_list) and dicts of numbers, which raise IndexError whatever they hold"
  },
  {
   "property": "C22",
   "status": "proved",
   "theorems": [
    "PK.C22_urdf_tree",
    "PK.C22_usable",
    "PK.C22_joint_names",
    "PK.C22_document"
   ],
   "note": "Proved for the parsed description and, through a writer with arbitrary number syntax, for the document. fuel is the recursion depth Python allows (at least the number of links)."
  },
  {
   "property": "C23",
   "status": "proved",
   "theorems": [
    "PK.C23_origin",
    "PK.C23_child_pose"
   ],
   "note": ""
  },
  {
   "property": "C24",
   "status": "partial",
   "theorems": [
    "PK.C24_loads_partial",
    "PK.C24_single_link_fails",
    "PK.C24_other_types_fail"
   ],
   "note": "False as stated: a single link raises UnboundLocalError (C24_single_link_fails), floating and planar joints raise KeyError (C24_other_types_fail). Proved for trees with at least one joint and the four supported types."
  },
  {
   "property": "C25",
   "status": "partial",
   "theorems": [
    "PK.C25_declared_axis_partial",
    "PK.C25_default_axis_fails"
   ],
   "note": "False as stated: the default axis is (0,0,1) (C25_default_axis_fails, for every tree). Declared axes are used."
  },
  {
   "property": "C26",
   "status": "partial",
   "theorems": [
    "PK.C26_limits_partial",
    "PK.C26_continuous_fails"
   ],
   "note": "False for a continuous joint whose limit element gives only effort and velocity: lower = upper = 0 (C26_continuous_fails). Proved for limits with declared bounds and joints without limit element."
  },
  {
   "property": "C27",
   "status": "proved",
   "theorems": [
    "PK.Sdf.C27_sdf_tree",
    "PK.Sdf.C27_zero_pose",
    "PK.Sdf.C27_child_pose",
    "PK.Sdf.C27_usable",
    "PK.Sdf.C27_joint_names",
    "PK.Sdf.C27_document"
   ],
   "note": "Proved for the parsed model and, through a writer with arbitrary number syntax, for the document. fuel is the recursion depth Python allows (at least the number of links). Poses are those the loader converts to, see C28 for the convention."
  },
  {
   "property": "C28",
   "status": "partial",
   "theorems": [
    "PK.Sdf.C28_conversion",
    "PK.Sdf.C28_pose_partial",
    "PK.Sdf.C28_fails"
   ],
   "note": "False as stated: the first angle is applied about z, the last about x, the reverse of the SDF convention (C28_conversion for every pose, C28_fails through forward kinematics). Proved when roll equals yaw (in particular pure translation or pitch)."
  },
  {
   "property": "C29",
   "status": "partial",
   "theorems": [
    "PK.Mjcf.C29_mjcf_tree",
    "PK.Mjcf.C29_usable",
    "PK.Mjcf.C29_pose_partial",
    "PK.Mjcf.C29_joint_names",
    "PK.Mjcf.C29_child_pose",
    "PK.Mjcf.C29_fails"
   ],
   "note": "False when a joint anchor (jnt_pos) is away from the body origin: the anchor is applied but not undone (C29_fails; C29_child_pose states the computed pose for every supported model). Proved with anchors at the body origins, then for all configurations, bodies and sites."
  },
  {
   "property": "C30",
   "status": "proved",
   "theorems": [
    "PK.C30_transform_points",
    "PK.C30_transform_points_flat",
    "PK.C30_compose_is_function_composition",
    "PK.C30_compose_assoc",
    "PK.C30_compose_identity"
   ],
   "note": ""
  },
  {
   "property": "C31",
   "status": "partial",
   "theorems": [
    "PK.C31_inverse_partial",
    "PK.C31_translate",
    "PK.C31_scale",
    "PK.C31_rotate",
    "PK.C31_fails_scaled",
    "PK.C31_fails_clone"
   ],
   "note": "plain transforms must be rigid; Transform3d().scale(2).inverse() and Scale(2).clone().inverse() are wrong (C31_fails_scaled, C31_fails_clone)"
  },
  {
   "property": "C32",
   "status": "proved",
   "theorems": [
    "PK.C32_compose_sizes",
    "PK.C32_points_sizes",
    "PK.C32_stack_concatenates",
    "PK.C32_stack_transform_points",
    "PK.C32_stack_index"
   ],
   "note": ""
  },
  {
   "property": "C33",
   "status": "proved",
   "theorems": [
    "PK.C33_normals_keep_tangents",
    "PK.C33_normals_rotate",
    "PK.C33_fails_scaled"
   ],
   "note": ""
  },
  {
   "property": "C34",
   "status": "partial",
   "theorems": [
    "PK.C34_assembles_partial",
    "PK.C34_accepted_sizes",
    "PK.C34_batched_pos_single_rot_fails",
    "PK.C34_three_euler_triples_fails"
   ],
   "note": "a batch of exactly three Euler triples is read as one matrix (C34_three_euler_triples_fails)"
  },
  {
   "property": "C35",
   "status": "proved",
   "theorems": [
    "PK.C35_quaternion_to_matrix_is_rotation",
    "PK.C35_quaternion_to_matrix_is_conjugation",
    "PK.C35_quaternion_to_matrix_scale_invariant",
    "PK.C35_quaternion_to_matrix_neg",
    "PK.C35_quaternion_to_matrix_mul"
   ],
   "note": ""
  },
  {
   "property": "C36",
   "status": "proved",
   "theorems": [
    "PK.C36_raw_multiply_is_hamilton",
    "PK.C36_standardize",
    "PK.C36_multiply",
    "PK.C36_invert",
    "PK.C36_apply",
    "PK.C36_xyzw_wxyz_roundtrip",
    "PK.C36_xyzw_real_part_last"
   ],
   "note": ""
  },
  {
   "property": "C37",
   "status": "proved",
   "theorems": [
    "PK.C37_matrix_to_quaternion_roundtrip",
    "PK.C37_quaternion_roundtrip"
   ],
   "note": ""
  },
  {
   "property": "C38",
   "status": "proved",
   "theorems": [
    "PK.C38_axis_angle_roundtrip",
    "PK.C38_axis_angle_to_matrix",
    "PK.C38_axis_angle_to_matrix_zero",
    "PK.C38_quaternion_roundtrip",
    "PK.C38_matrix_roundtrip"
   ],
   "note": "exact outside the band 0<|v|<1e-6 where the code uses a truncated series, and away from the full turn"
  },
  {
   "property": "C39",
   "status": "proved",
   "theorems": [
    "PK.C39_is_rodrigues",
    "PK.C39_is_rotation",
    "PK.C39_one_parameter_group",
    "PK.C39_angle",
    "PK.C39_matrix44",
    "PK.C39_prismatic"
   ],
   "note": ""
  },
  {
   "property": "C40",
   "status": "partial",
   "theorems": [
    "PK.C40_euler_angles_to_matrix",
    "PK.C40_matrix_roundtrip_partial",
    "PK.C40_angles_roundtrip",
    "PK.C40_gimbal_lock_fails",
    "PK.C40_invalid_convention"
   ],
   "note": "false at gimbal lock (witness C40_gimbal_lock_fails); proved for every rotation away from it, all 12 conventions"
  },
  {
   "property": "C41",
   "status": "proved",
   "theorems": [
    "PK.C41_quaternion_from_euler",
    "PK.C41_unknown_axes"
   ],
   "note": ""
  },
  {
   "property": "C42",
   "status": "proved",
   "theorems": [
    "PK.C42_rotation_6d_is_rotation",
    "PK.C42_tiny_input_fails",
    "PK.C42_rotation_6d_roundtrip",
    "PK.C42_se3_9d_roundtrip",
    "PK.C42_pos_rot_roundtrip"
   ],
   "note": "F.normalize does not normalise vectors shorter than 1e-12; C42_tiny_input_fails shows the size condition is needed."
  },
  {
   "property": "C43",
   "status": "partial",
   "theorems": [
    "PK.C43_hat",
    "PK.C43_hat_inv_rejects",
    "PK.C43_exp_is_rotation",
    "PK.C43_log_exp_partial",
    "PK.C43_exp_log_partial",
    "PK.C43_log_half_turn_fails",
    "PK.C43_relative_angle",
    "PK.C43_trace_rejected"
   ],
   "note": "Exact for angles in [bandAngle, pi - bandAngle] (bandAngle = arccos(1-1e-4)); error bounds below; false above, C43_log_half_turn_fails."
  },
  {
   "property": "C44",
   "status": "proved",
   "theorems": [
    "PK.C44_errors",
    "PK.C44_extends_acos"
   ],
   "note": ""
  },
  {
   "property": "C45",
   "status": "partial",
   "theorems": [
    "PK.C45_angular_distance_partial",
    "PK.C45_angular_distance_error",
    "PK.C45_batch_dependent"
   ],
   "note": "The code zeroes the whole batch when every pair is close and never otherwise: C45_batch_dependent. Error at most 0.0201 rad for every batch."
  },
  {
   "property": "C46",
   "status": "partial",
   "theorems": [
    "PK.C46_slerp_partial",
    "PK.C46_lerp_branch",
    "PK.C46_identical_pair_nan",
    "PK.C46_lerp_not_unit"
   ],
   "note": "NaN for an identical pair next to a distant one (C46_identical_pair_nan); result not unit in the linear branch (C46_lerp_not_unit)."
  },
  {
   "property": "C47",
   "status": "partial",
   "theorems": [
    "PK.C47_quaternion_from_euler_partial",
    "PK.C47_quaternion_from_euler_mutates",
    "PK.C47_slerp_partial",
    "PK.C47_slerp_mutates"
   ],
   "note": "Both functions write into the caller's tensor: C47_quaternion_from_euler_mutates, C47_slerp_mutates."
  },
  {
   "property": "C48",
   "status": "proved",
   "theorems": [
    "PK.C48_rigid",
    "PK.C48_noise",
    "PK.C48_noise_random_axis"
   ],
   "note": ""
  },
  {
   "property": "C49",
   "status": "proved",
   "theorems": [
    "PK.C49_sticky"
   ],
   "note": ""
  },
  {
   "property": "C50",
   "status": "partial",
   "theorems": [
    "PK.C50_flags_partial",
    "PK.C50_fails_pos_any",
    "PK.C50_fails_witness"
   ],
   "note": "converged / converged_any are exact for every history; converged_pos_any and converged_rot_any are never written by the code, so the last clause is refuted (C50_fails_pos_any, C50_fails_witness)."
  },
  {
   "property": "C51",
   "status": "proved",
   "theorems": [
    "PK.C51_converged_reaches_target"
   ],
   "note": "For every evaluation that reports the pose error of the Jacobian pose (ReportsError; holds for both kernels and exists for every chain, realises_exists)."
  },
  {
   "property": "C52",
   "status": "proved",
   "theorems": [
    "PK.C52_within_limits"
   ],
   "note": "Steps at numeric rows are numbers (FiniteSteps), which holds for the default kernel (Realises.finiteSteps)."
  },
  {
   "property": "C53",
   "status": "partial",
   "theorems": [
    "PK.C53_numeric_partial",
    "PK.C53_fails_unlimited",
    "PK.C53_fails_unconverged"
   ],
   "note": "Holds when every revolute joint has two finite limits; with enforcement and some finite limit, a revolute joint lacking one gets NaN or an infinite value in every solution (C53_fails_unlimited) and is never reported converged (C53_fails_unconverged)."
  },
  {
   "property": "C54",
   "status": "proved",
   "theorems": [
    "PK.C54_system_solvable",
    "PK.C54_step_minimises"
   ],
   "note": ""
  },
  {
   "property": "C55",
   "status": "partial",
   "theorems": [
    "PK.C55_svd_step_partial",
    "PK.C55_fails_few_joints"
   ],
   "note": "Proved for dof >= 6 with any valid reduced SVD; for dof < 6 the kernel raises RuntimeError (C55_fails_few_joints)."
  },
  {
   "property": "C56",
   "status": "proved",
   "theorems": [
    "PK.C56_first_sufficient_step"
   ],
   "note": ""
  },
  {
   "property": "C57",
   "status": "partial",
   "theorems": [
    "PK.C57_stopping_partial",
    "PK.C57_fails_all",
    "PK.C57_fails_any",
    "PK.C57_ratio_equivalents_partial",
    "PK.C57_fails_many_retries"
   ],
   "note": "The keep mask follows the code exactly; \"all\" and \"any\" have the opposite effect of the documentation (C57_fails_all, C57_fails_any); the ratio equivalents hold for fewer than 1000 retries and fail beyond (C57_fails_many_retries)."
  },
  {
   "property": "C58",
   "status": "proved",
   "theorems": [
    "PK.C58_delta_pose",
    "PK.C58_zero_iff"
   ],
   "note": "Statement narrowed: between 0 and 1e-6 rad the length of the rotation part is exact only up to a relative 1e-13 (Taylor branch)."
  },
  {
   "property": "C59",
   "status": "proved",
   "theorems": [
    "PK.C59_batch_keeps_solutions"
   ],
   "note": ""
  },
  {
   "property": "C60",
   "status": "proved",
   "theorems": [
    "PK.C60_terminates"
   ],
   "note": ""
  },
  {
   "property": "C61",
   "status": "proved",
   "theorems": [
    "PK.C61_wrap",
    "PK.C61_wrap_keeps_pose"
   ],
   "note": ""
  },
  {
   "property": "C62",
   "status": "partial",
   "theorems": [
    "PK.C62_start_rows_partial",
    "PK.C62_fails_batched",
    "PK.C62_square_batch"
   ],
   "note": "(R, dof) tensors are assigned as stated; a batched (N, R, dof) tensor is rejected unless R = dof (C62_fails_batched), in which case it is assigned as stated (C62_square_batch)."
  },
  {
   "property": "C63",
   "status": "partial",
   "theorems": [
    "PK.C63_device_partial",
    "PK.C63_fails"
   ],
   "note": "false: a tensor cached before to() stays on the old device (C63_fails, for every chain, frames and devices); proved when these frames were not asked for before the last to()"
  },
  {
   "property": "C64",
   "status": "proved",
   "theorems": [
    "PK.C64_print_tree"
   ],
   "note": ""
  },
  {
   "property": "C65",
   "status": "proved",
   "theorems": [
    "PK.C65_random_quaternion",
    "PK.C65_random_rotation"
   ],
   "note": ""
  },
  {
   "property": "C66",
   "status": "partial",
   "theorems": [
    "PK.C66_same_values_partial",
    "PK.C66_fails_jacobian_dict"
   ],
   "note": "proved for lists, 1-D and one-row tensors; false for dicts: jacobian documents them but raises RuntimeError, forward_kinematics raises IndexError on a dict of numbers (C21_number_dict_raises)"
  },
  {
   "property": "C67",
   "status": "partial",
   "theorems": [
    "PK.C67_builders_apply_last_first_partial",
    "PK.C67_documented_order_fails"
   ],
   "note": "the code applies builders in the opposite of the documented order (C67_documented_order_fails); the order actually used is proved"
  },
  {
   "property": "C68",
   "status": "partial",
   "theorems": [
    "PK.C68_to_partial",
    "PK.C68_attributes_consistent",
    "PK.C68_subclass_dtype_fails"
   ],
   "note": "Translate/Scale/Rotate with dtype float64 report float32, so to(dtype=float32) returns a float64 matrix (C68_subclass_dtype_fails)"
  },
  {
   "property": "C69",
   "status": "partial",
   "theorems": [
    "PK.C69_shape_operator_partial",
    "PK.C69_four_dim_fails"
   ],
   "note": "the documented (N,P,3,3) input always raises (C69_four_dim_fails)"
  },
  {
   "property": "C70",
   "status": "proved",
   "theorems": [
    "PK.C70_rotate_axis_angle",
    "PK.C70_counter_clockwise",
    "PK.C70_rejects"
   ],
   "note": ""
  },
  {
   "property": "C71",
   "status": "proved",
   "theorems": [
    "PK.C71_coordinates",
    "PK.C71_tensor_and_singleton"
   ],
   "note": ""
  },
  {
   "property": "C72",
   "status": "proved",
   "theorems": [
    "PK.C72_errors_of_solution"
   ],
   "note": ""
  },
  {
   "property": "C73",
   "status": "partial",
   "theorems": [
    "PK.C73_queries_partial",
    "PK.C73_fk_partial",
    "PK.C73_fails_names",
    "PK.C73_fails_indices"
   ],
   "note": "false when a caller changes a returned list or tensor in place, because the cached object itself is handed out (C73_fails_names, C73_fails_indices); proved for every program that does not"
  },
  {
   "property": "C74",
   "status": "proved",
   "theorems": [
    "PK.C74_velocity_effort"
   ],
   "note": ""
  },
  {
   "property": "C75",
   "status": "partial",
   "theorems": [
    "PK.C75_mimic_partial",
    "PK.C75_fails"
   ],
   "note": "Robots without mimic elements. The loader ignores mimic: C75_fails."
  },
  {
   "property": "C76",
   "status": "proved",
   "theorems": [
    "PK.C76_urdf_format",
    "PK.C76_sdf_format"
   ],
   "note": ""
  },
  {
   "property": "C77",
   "status": "proved",
   "theorems": [
    "PK.Mjcf.C77_serial_mjcf",
    "PK.Sdf.C77_serial_sdf",
    "PK.C77_serial_urdf"
   ],
   "note": "Trees with distinct names, non-zero axes, links without visuals (URDF, SDF)."
  },
  {
   "property": "C78",
   "status": "partial",
   "theorems": [
    "PK.Sdf.C78_joint_pose_partial",
    "PK.Sdf.C78_fails"
   ],
   "note": "Joint poses that are absent or commute with the joint motion; the loader ignores the pose: C78_fails."
  },
  {
   "property": "C79",
   "status": "partial",
   "theorems": [
    "PK.Sdf.C79_loads_partial",
    "PK.Sdf.C79_no_inertial_fails",
    "PK.Sdf.C79_no_axis_fails",
    "PK.Sdf.C79_single_link_fails",
    "PK.Sdf.C79_world_fails",
    "PK.Sdf.C79_mesh_uri_fails"
   ],
   "note": "Models with an inertial per link, an axis per joint and at least one joint; the other cases fail: C79_no_inertial_fails, C79_no_axis_fails, C79_single_link_fails, C79_world_fails, C79_mesh_uri_fails."
  },
  {
   "property": "C80",
   "status": "partial",
   "theorems": [
    "PK.Sdf.C80_limits_partial",
    "PK.Sdf.C80_one_bound_fails"
   ],
   "note": "Joints with both bounds or none; with one bound loading raises TypeError: C80_one_bound_fails."
  },
  {
   "property": "C81",
   "status": "partial",
   "theorems": [
    "PK.Mjcf.C81_limits_partial",
    "PK.Mjcf.C81_fails"
   ],
   "note": "Limited joints; an unlimited joint is reported with its range (0, 0): C81_fails."
  },
  {
   "property": "C82",
   "status": "partial",
   "theorems": [
    "PK.Mjcf.C82_loads_partial",
    "PK.Mjcf.C82_loads_iff",
    "PK.Mjcf.C82_fails"
   ],
   "note": "Loads exactly when every body has at most one joint, a hinge or slide (C82_loads_iff); C82_fails."
  },
  {
   "property": "C83",
   "status": "proved",
   "theorems": [
    "PK.Mjcf.C83_body_argument"
   ],
   "note": ""
  },
  {
   "property": "C84",
   "status": "partial",
   "theorems": [
    "PK.Mjcf.C84_all_elements_partial",
    "PK.Mjcf.C84_fails"
   ],
   "note": "Distinct names; unnamed elements overwrite each other: C84_fails."
  },
  {
   "property": "C85",
   "status": "proved",
   "theorems": [
    "PK.C85_get_transform"
   ],
   "note": ""
  },
  {
   "property": "C86",
   "status": "proved",
   "theorems": [
    "PK.C86_joint_clamp"
   ],
   "note": ""
  },
  {
   "property": "C87",
   "status": "proved",
   "theorems": [
    "PK.C87_start_kept",
    "PK.C87_exact_start"
   ],
   "note": ""
  },
  {
   "property": "C88",
   "status": "proved",
   "theorems": [
    "PK.C88_reuse"
   ],
   "note": ""
  },
  {
   "property": "C89",
   "status": "proved",
   "theorems": [
    "PK.C89_uniform_within_limits",
    "PK.C89_gaussian_around",
    "PK.C89_constructor_errors",
    "PK.C89_start_of_samples",
    "PK.C89_uniform_common_limits"
   ],
   "note": ""
  },
  {
   "property": "C90",
   "status": "proved",
   "theorems": [
    "PK.C90_velocity"
   ],
   "note": ""
  },
  {
   "property": "C91",
   "status": "proved",
   "theorems": [
    "PK.C91_descent"
   ],
   "note": "Targets not half a turn away; rotation errors zero or at least 1e-6 rad."
  },
  {
   "property": "C92",
   "status": "partial",
   "theorems": [
    "PK.C92_turned_cylinder",
    "PK.Urdf.C92_urdf_partial",
    "PK.Urdf.C92_urdf_fails",
    "PK.Sdf.C92_sdf_partial",
    "PK.Sdf.C92_sdf_scale_fails",
    "PK.Sdf.C92_sdf_pose_fails",
    "PK.Mjcf.C92_mjcf_geoms",
    "PK.Mjcf.C92_mjcf_type_fails"
   ],
   "note": "URDF: one visual per link, the first, is proved shown as declared; other visuals are lost, links without visuals get an empty one, capsules lose their shape (C92_urdf_fails). SDF: all visuals in order with shape and dimensions; poses only when roll = yaw (C92_sdf_pose_fails), no scaled meshes (C92_sdf_scale_fails). MJCF: all geoms in order with pose, code and size; the code is not one of Visual.TYPES (C92_mjcf_type_fails)."
  },
  {
   "property": "C93",
   "status": "proved",
   "theorems": [
    "PK.C93_moved",
    "PK.C93_constructed",
    "PK.C93_fk",
    "PK.C93_data",
    "PK.C93_backward",
    "PK.C93_jacobian",
    "PK.C93_moved_serial"
   ],
   "note": "Tags only: dtype and device of every tensor; torch operand rules are definitions of the model. Values are in C01, C17 and others."
  },
  {
   "property": "C94",
   "status": "partial",
   "theorems": [
    "PK.C94_locations_partial",
    "PK.C94_location_tensor_fails"
   ],
   "note": "Holds for lists, arrays, Transform3d objects and CPU tensors; false for tensors on any other device (C94_location_tensor_fails)."
  },
  {
   "property": "C95",
   "status": "partial",
   "theorems": [
    "PK.C95_device_fails",
    "PK.C95_dtype_fails",
    "PK.C95_serial_partial",
    "PK.C95_serial_fails"
   ],
   "note": "Holds on the CPU with the dtype of the frames. False for every other device, for a dtype other than that of the frames, and for serial chains of moved chains (C95_device_fails, C95_dtype_fails, C95_serial_fails)."
  },
  {
   "property": "C96",
   "status": "partial",
   "theorems": [
    "PK.C96_solve_partial",
    "PK.C96_uniform",
    "PK.C96_gaussian_fails",
    "PK.C96_limits_fails",
    "PK.C96_target_fails"
   ],
   "note": "Holds for given and uniformly sampled configurations of the chain dtype and targets not wider than the chain. False for gaussian sampling on float64 chains, float32 limits on float64 chains, float64 targets on float32 chains."
  },
  {
   "property": "C97",
   "status": "partial",
   "theorems": [
    "PK.C97_independent_partial",
    "PK.C97_to_copy_partial",
    "PK.C97_get_matrix",
    "PK.C97_of_matrix",
    "PK.C97_item",
    "PK.C97_to_copy_fails",
    "PK.C97_compose_fails",
    "PK.C97_values",
    "PK.C97_slice",
    "PK.C97_list"
   ],
   "note": "C97_independent_partial: after any program, the result of clone, inverse, stack, compose with arguments, the builders and the constructors is independent of every earlier tensor and transform, in both directions, under any later program.  C97_to_copy_partial: the same for to(copy=True) when dtype or device changes.  Violated by to(device, copy=True) with unchanged dtype and device (C97_to_copy_fails: the copy shares the matrix although the docstring promises a new object) and by compose() without arguments (C97_compose_fails).  C97_get_matrix, C97_of_matrix, C97_item say what is shared on purpose; C97_values: values agree with the model of Transform3d."
  },
  {
   "property": "C98",
   "status": "proved",
   "theorems": [
    "PK.C98_source_unchanged",
    "PK.C98_source_kept",
    "PK.C98_serial_kept",
    "PK.C98_value",
    "PK.C98_raises"
   ],
   "note": "C98_source_unchanged: construction changes no earlier object.  C98_source_kept: programs that go through the frames of the serial chain change nothing of the source.  C98_serial_kept: programs that do not go through them do not change the serial chain.  C98_value, C98_raises: the constructed frames and the exceptions are those of the value model, so C19 and C20 apply to the objects.  Non-trivial case: exProgram."
  },
  {
   "property": "C99",
   "status": "proved",
   "theorems": [
    "PK.C99_random_rotations_uniform",
    "PK.C99_uniform_rotation_unique"
   ],
   "note": "The law of the pseudo-random generator is taken to be that of independent standard normals (real arithmetic)."
  },
  {
   "property": "C100",
   "status": "proved",
   "theorems": [
    "PK.C100_random_axis",
    "PK.C100_given_axis",
    "PK.C100_given_axis_perpendicular",
    "PK.C100_uniform_direction_unique"
   ],
   "note": "Inputs rigid; a given axis is a unit vector where perpendicular displacements are asked for. torch.randn is taken as independent standard normals (real arithmetic)."
  },
  {
   "property": "C101",
   "status": "proved",
   "theorems": [
    "PK.C101_uniform",
    "PK.C101_gaussian",
    "PK.C101_gaussian_around"
   ],
   "note": "Limits with low < high and one row per joint. torch.rand and torch.randn are taken as independent uniform and standard normal numbers (real arithmetic)."
  },
  {
   "property": "C102",
   "status": "proved",
   "theorems": [
    "PK.C102_rounding",
    "PK.C102_linear",
    "PK.C102_precision"
   ],
   "note": "Arithmetic without overflow and underflow. The linear bounds assume n times the error per frame at most 1 (in p-bit arithmetic 91 n <= 2^p, p >= 10); C102_rounding holds without that. C102_precision assumes stored offsets that are exactly rigid and exactly unit axes and correctly rounded cos and sin; C102_rounding and C102_linear cover stored data and functions with errors."
  },
  {
   "property": "C103",
   "status": "proved",
   "theorems": [
    "PK.Urdf.C103_urdf_joint_types",
    "PK.Sdf.C103_sdf_joint_types",
    "PK.Urdf.C103_urdf_rejects",
    "PK.Urdf.C103_urdf_accepts",
    "PK.Sdf.C103_sdf_rejects",
    "PK.Sdf.C103_sdf_accepts"
   ],
   "note": "kind of exception not claimed; SDF schema as the parser has it (see C79); inf/nan inside vectors outside the model"
  },
  {
   "property": "C104",
   "status": "proved",
   "theorems": [
    "PK.Urdf.C104_urdf_defaults",
    "PK.Sdf.C104_sdf_defaults"
   ],
   "note": "axis, mesh scale and SDF bounds excluded (C25, C80)"
  },
  {
   "property": "C105",
   "status": "partial",
   "theorems": [
    "PK.Urdf.C105_urdf_partial",
    "PK.Urdf.C105_urdf_no_root",
    "PK.Urdf.C105_forest_fails",
    "PK.Urdf.C105_two_parents_fails",
    "PK.Urdf.C105_unknown_parent_fails",
    "PK.Sdf.C105_sdf_partial",
    "PK.Sdf.C105_sdf_no_root"
   ],
   "note": "Proved: what is loaded is the part reachable from the root, without cycles; one frame per link iff the document is a tree; no root is rejected. False: a second tree, a second parent and a joint with an undeclared parent do not raise (C105_forest_fails, C105_two_parents_fails, C105_unknown_parent_fails)."
  },
  {
   "property": "C106",
   "status": "partial",
   "theorems": [
    "PK.C106_accepted_partial",
    "PK.C106_missing_joint_fails"
   ],
   "note": "False for every dictionary that leaves out a joint (C106_missing_joint_fails): the code raises ValueError, as C09 states. Accepted dictionaries mean what the README says."
  },
  {
   "property": "C107",
   "status": "proved",
   "theorems": [
    "PK.C107_local_convergence",
    "PK.C107_enforced"
   ],
   "note": "C107_local_convergence without limit enforcement, C107_enforced with it."
  },
  {
   "property": "C108",
   "status": "partial",
   "theorems": [
    "PK.C108_gradient",
    "PK.C108_smooth",
    "PK.C108_second_order_partial",
    "PK.C108_second_order_stationary",
    "PK.C108_jacobian_gradient",
    "PK.C108_second_order_prismatic",
    "PK.C108_second_order_fails"
   ],
   "note": "First derivatives of every loss are proved (C108_gradient, C108_jacobian_gradient, C108_smooth). Second derivatives with the default backward pass are wrong: C108_second_order_fails; C108_second_order_partial states exactly which term is missing, and C108_second_order_stationary and C108_second_order_prismatic the cases where it is zero."
  },
  {
   "property": "C109",
   "status": "proved",
   "theorems": [
    "PK.C109_reach",
    "PK.C109_converged_reachable",
    "PK.C109_unreachable",
    "PK.C109_unreachable_limits"
   ],
   "note": "C109_reach bounds the distance of the end from both sides; C109_converged_reachable, C109_unreachable and C109_unreachable_limits draw the conclusions for the solver. The examples are a planar arm with links 2 and 1: targets at distance 4 and 1/2 are never reported as converged, and the outer bound is attained."
  },
  {
   "property": "C110",
   "status": "proved",
   "theorems": [
    "PK.C110_serial",
    "PK.C110_tree",
    "PK.C110_revolute"
   ],
   "note": "C110_serial, C110_tree; C110_revolute is the simpler bound without prismatic joints."
  },
  {
   "property": "C111",
   "status": "partial",
   "theorems": [
    "PK.C111_written_robot_loads_same",
    "PK.C111_round_trip_partial",
    "PK.C111_write_pure_partial",
    "PK.C111_gazebo_text_lost",
    "PK.C111_second_write_differs"
   ],
   "note": "C111_written_robot_loads_same is the full statement for chains. C111_round_trip_partial (equal object) needs <gazebo> elements without direct text and comments, C111_write_pure_partial (writing changes nothing) no <gazebo> elements; both are false otherwise, with witnesses C111_gazebo_text_lost and C111_second_write_differs."
  },
  {
   "property": "C112",
   "status": "partial",
   "theorems": [
    "PK.C112_round_trip_partial",
    "PK.C112_empty_flag_changes",
    "PK.C112_flag_text_ignored"
   ],
   "note": "C112_round_trip_partial is the whole statement for documents whose flags are not given empty; C112_empty_flag_changes refutes it for an empty <use_parent_model_frame/>, and C112_flag_text_ignored shows that any text means True."
  },
  {
   "property": "C113",
   "status": "proved",
   "theorems": [
    "PK.C113_get_root",
    "PK.C113_get_chain",
    "PK.C113_get_chain_error",
    "PK.C113_agrees",
    "PK.C113_cycle_runs_forever"
   ],
   "note": "C113_get_root is an equivalence for every robot; C113_get_chain and C113_get_chain_error need a tree and distinct joint names. Beside the claim C113_cycle_runs_forever shows that get_chain does not return on a cyclic description."
  },
  {
   "property": "C114",
   "status": "proved",
   "theorems": [
    "PK.C114_jacobian",
    "PK.C114_tool",
    "PK.C114_precision"
   ],
   "note": "C114_jacobian and C114_tool for every arithmetic and every ideal robot near the stored numbers; C114_precision for binary arithmetic with q digits. Overflow and underflow are outside, as for C102."
  },
  {
   "property": "C115",
   "status": "proved",
   "theorems": [
    "PK.C115_matrix_to_quaternion",
    "PK.C115_quaternion_to_matrix",
    "PK.C115_round_trip"
   ],
   "note": "C115_matrix_to_quaternion, C115_quaternion_to_matrix, C115_round_trip for every arithmetic. Overflow and underflow are outside, as for C102."
  },
  {
   "property": "C116",
   "status": "proved",
   "theorems": [
    "PK.C116_errors",
    "PK.C116_converged",
    "PK.C116_within_limits",
    "PK.C116_precision"
   ],
   "note": "C116_errors, C116_converged, C116_within_limits for every arithmetic and every proposed step; C116_precision for binary arithmetic with q digits. Overflow and underflow are outside, as for C102; torch.norm and atan2 enter with their relative errors; a batch is evaluated row by row."
  },
  {
   "property": "C117",
   "status": "partial",
   "theorems": [
    "PK.C117_quaternion_to_matrix",
    "PK.C117_axis_and_angle_to_matrix_33",
    "PK.C117_matrix_to_quaternion_partial",
    "PK.C117_fails_matrix_to_quaternion",
    "PK.C117_fails_sqrt_positive_part",
    "PK.C117_fails_revolute_joint",
    "PK.C117_quaternion_to_axis_angle_partial",
    "PK.C117_fails_quaternion_to_axis_angle",
    "PK.C117_fails_matrix_to_axis_angle",
    "PK.C117_axis_angle_to_quaternion_partial",
    "PK.C117_fails_axis_angle_to_quaternion",
    "PK.C117_acos_linear_extrapolation",
    "PK.C117_quaternion_angular_distance_partial",
    "PK.C117_fails_quaternion_angular_distance"
   ],
   "note": "Proved: quaternion_to_matrix, axis_and_angle_to_matrix_33, acos_linear_extrapolation at every input; the others away from the exceptional sets (_partial). The exceptional sets are proved to give NaN (C117_fails_*), so the full statement is false. For the two axis-angle conversions, the angle 1e-6 at which the formula changes is excluded. PyTorch's local factors are trusted; arithmetic is exact apart from NaN and infinities."
  },
  {
   "property": "C118",
   "status": "proved",
   "theorems": [
    "PK.C118_gradient",
    "PK.C118_offsets",
    "PK.C118_agrees",
    "PK.C118_loss",
    "PK.C118_second_order",
    "PK.C118_second_order_arm",
    "PK.C118_every_order"
   ],
   "note": "Exact arithmetic. PyTorch's rules for sums, products, sine and cosine are trusted, and so are the derivatives of the user's loss; in-place writes into T_world_link are recorded as new entries."
  },
  {
   "property": "C119",
   "status": "proved",
   "theorems": [
    "PK.C119_exp_map",
    "PK.C119_rotation_angle",
    "PK.C119_relative_angle",
    "PK.C119_log_map",
    "PK.C119_log_map_identity",
    "PK.C119_rotation_angle_unbounded"
   ],
   "note": "Exact arithmetic; PyTorch's rules for the recorded operations are trusted. For so3_exp_map on the sphere |v|^2 = eps, where the clamped formula has a kink, the gradient is that of the exact map."
  },
  {
   "property": "C120",
   "status": "proved",
   "theorems": [
    "PK.C120_points",
    "PK.C120_normals",
    "PK.C120_matrix",
    "PK.C120_methods",
    "PK.C120_shared_translation"
   ],
   "note": "Exact arithmetic; PyTorch's rules for the recorded operations are trusted. transform_points without eps. Inputs where a value is itself not finite (zero quaternion, inverted zero factor, points at infinity) are excluded by TRegular."
  },
  {
   "property": "C121",
   "status": "proved",
   "theorems": [
    "PK.C121_quaternion_to_matrix",
    "PK.C121_matrix_to_quaternion",
    "PK.C121_axis_angle_to_quaternion",
    "PK.C121_quaternion_to_axis_angle",
    "PK.C121_axis_angle_to_matrix",
    "PK.C121_matrix_to_axis_angle",
    "PK.C121_euler_angles_to_matrix",
    "PK.C121_matrix_to_euler_angles",
    "PK.C121_quaternion_from_euler",
    "PK.C121_standardize_quaternion",
    "PK.C121_quaternion_invert",
    "PK.C121_random_quaternions",
    "PK.C121_component_order",
    "PK.C121_rotation_6d",
    "PK.C121_se3_9d",
    "PK.C121_pos_rot",
    "PK.C121_quaternion_multiply",
    "PK.C121_quaternion_apply",
    "PK.C121_axis_and_angle_to_matrix_33",
    "PK.C121_joint_matrices",
    "PK.C121_same_shape",
    "PK.C121_rejects"
   ],
   "note": "Exact arithmetic; PyTorch's operations on shapes are trusted as stated in Model/Tensor.lean. Floating-point inputs of one dtype and device. Views are not represented: quaternion_from_euler returns the caller's tensor after the call."
  },
  {
   "property": "C122",
   "status": "partial",
   "theorems": [
    "PK.C122_forward",
    "PK.C122_poses_by_name",
    "PK.C122_one_row",
    "PK.C122_gradient_partial",
    "PK.C122_fails_empty_batch",
    "PK.C122_gradient_row_alone",
    "PK.C122_jacobian",
    "PK.C122_jacobian_tool",
    "PK.C122_jacobian_one_row"
   ],
   "note": "Full statement: poses, gradients and Jacobians for every batch size. Missing: the gradient of an empty batch, which raises (C122_fails_empty_batch); C122_gradient_partial assumes B > 0. Exact arithmetic; PyTorch's operations on shapes are trusted as stated in Model/Tensor.lean and Model/TensorChain.lean."
  },
  {
   "property": "C123",
   "status": "proved",
   "theorems": [
    "PK.C123_delta_pose",
    "PK.C123_delta_pose_geometry",
    "PK.C123_kernel",
    "PK.C123_kernel_svd",
    "PK.C123_kernel_svd_few_joints",
    "PK.C123_kernel_no_retries",
    "PK.C123_start",
    "PK.C123_start_invalid",
    "PK.C123_solve",
    "PK.C123_converged_reaches_target",
    "PK.C123_errors_of_solution",
    "PK.C123_within_limits",
    "PK.C123_batch_keeps_solutions",
    "PK.C123_no_retries",
    "PK.C123_no_joints"
   ],
   "note": "Exact arithmetic for numeric joint values; rows with values that are not numbers get an arbitrary answer with a non-finite error (Realises). Views are reshapes (strides not modelled). The solver theorems use the default kernel; the SVD kernel is covered by C123_kernel_svd, its behaviour on values that are not numbers is not modelled. C123_batch_keeps_solutions is without line search and limit enforcement, as C59."
  },
  {
   "property": "C124",
   "status": "proved",
   "theorems": [
    "PK.C124_compose",
    "PK.C124_compose_sizes",
    "PK.C124_compose_devices",
    "PK.C124_compose_list",
    "PK.C124_inverse",
    "PK.C124_points",
    "PK.C124_points_projective",
    "PK.C124_points_eps",
    "PK.C124_points_flat",
    "PK.C124_points_rank",
    "PK.C124_points_sizes",
    "PK.C124_points_devices",
    "PK.C124_normals",
    "PK.C124_normals_flat",
    "PK.C124_normals_dual",
    "PK.C124_shape_operator",
    "PK.C124_shape_operator_batched",
    "PK.C124_stack",
    "PK.C124_stack_devices",
    "PK.C124_getitem_int",
    "PK.C124_getitem_slice",
    "PK.C124_getitem_idx",
    "PK.C124_translate",
    "PK.C124_scale",
    "PK.C124_coords_sizes",
    "PK.C124_coords_columns",
    "PK.C124_translate_single",
    "PK.C124_rotate",
    "PK.C124_rotate_converts",
    "PK.C124_rotate_axis_angle",
    "PK.C124_rotate_axis_angle_axis",
    "PK.C124_method_translate",
    "PK.C124_method_scale",
    "PK.C124_method_rotate",
    "PK.C124_method_rotate_axis_angle",
    "PK.C124_to",
    "PK.C124_clone",
    "PK.C124_init_matrix",
    "PK.C124_init_matrix_flat",
    "PK.C124_init_matrix_refused",
    "PK.C124_init_identity",
    "PK.C124_init_pos",
    "PK.C124_init_rot",
    "PK.C124_init_pos_rot"
   ],
   "note": "Arithmetic is exact; conversions between dtypes round. Integer tensors as points, coordinates or matrices are not in the theorems. Views are reshapes. batch_to_batch=True is not modelled. Shape operators with a batch dimension of their own are refused although the docstring allows them (C124_shape_operator_batched, the disagreement of C69)."
  },
  {
   "property": "C125",
   "status": "partial",
   "theorems": [
    "PK.C125_builders_partial",
    "PK.C125_fails_builders",
    "PK.C125_position_list_partial",
    "PK.C125_fails_position_list",
    "PK.C125_fails_rotate_axis_angle",
    "PK.C125_points_partial",
    "PK.C125_integer_points",
    "PK.C125_fails_integer_points"
   ],
   "note": "Violated by the defaults: numbers are rounded to float32 (C125_fails_builders, C125_fails_position_list), RotateAxisAngle always returns float32 (C125_fails_rotate_axis_angle), integer points truncate the matrix (C125_fails_integer_points). With the dtype given explicitly and points of the dtype of the transform the statement holds (_partial theorems)."
  },
  {
   "property": "C126",
   "status": "partial",
   "theorems": [
    "PK.C126_urdf",
    "PK.C126_sdf",
    "PK.C126_mjcf",
    "PK.C126_positions_partial",
    "PK.C126_fails"
   ],
   "note": "Violated: the loaders round to float32 before the conversion to float64 (C126_fails). Positions that float32 represents are kept (C126_positions_partial). Exponent ranges of the dtypes are not bounded; the orientation is described by C126_urdf, C126_sdf and C126_mjcf as that of the rounded numbers."
  },
  {
   "property": "C127",
   "status": "partial",
   "theorems": [
    "PK.C127_angular_distance",
    "PK.C127_acos",
    "PK.C127_slerp_partial",
    "PK.C127_lerp",
    "PK.C127_single_pair_fails",
    "PK.C127_grid_fails",
    "PK.C127_grid4",
    "PK.C127_grid4_wrong",
    "PK.C127_one_target_fails",
    "PK.C127_one_target4_wrong",
    "PK.C127_steps_fail"
   ],
   "note": "Distance and arccos hold for all shapes; quaternion_slerp for lists of pairs (C127_slerp_partial, C127_lerp). Single pairs, grids, one target for several starts and parameter tensors fail: C127_single_pair_fails, C127_grid_fails, C127_grid4_wrong, C127_one_target_fails, C127_one_target4_wrong, C127_steps_fail."
  },
  {
   "property": "C128",
   "status": "partial",
   "theorems": [
    "PK.C128_hat",
    "PK.C128_hat_inv",
    "PK.C128_exp",
    "PK.C128_log_exp_partial",
    "PK.C128_exp_log_partial",
    "PK.C128_relative_angle",
    "PK.C128_rotation_angle",
    "PK.C128_shapes",
    "PK.C128_log_half_turn_fails",
    "PK.C128_log_empty_fails",
    "PK.C128_relative_shape_fails",
    "PK.C128_relative_accepts"
   ],
   "note": "Row-wise for every batch; log and exp undo each other for angles up to pi - bandAngle. Violated at half turns, for the empty batch, and by the errors of so3_relative_angle for wrong shapes (_fails theorems)."
  },
  {
   "property": "C129",
   "status": "proved",
   "theorems": [
    "PK.C129_axis",
    "PK.C129_random_axis",
    "PK.C129_sizes"
   ],
   "note": "Axis and draws have the dtype of the transform; the third part of C129_sizes is about the default (perpendicular) translation."
  },
  {
   "property": "C130",
   "status": "partial",
   "theorems": [
    "PK.C130_quaternion_raw_multiply",
    "PK.C130_quaternion_invert",
    "PK.C130_quaternion_apply",
    "PK.C130_quaternion_multiply",
    "PK.C130_standardize_quaternion",
    "PK.C130_euler_angles_to_matrix",
    "PK.C130_refused",
    "PK.C130_matrix_to_euler_angles_partial",
    "PK.C130_fails_gimbal_lock",
    "PK.C130_rotation_6d_to_matrix",
    "PK.C130_rotation_6d_zero",
    "PK.C130_se3_9d_to_matrix44",
    "PK.C130_pos_rot_to_matrix"
   ],
   "note": "matrix_to_euler_angles returns NaN gradients at gimbal lock (C130_fails_gimbal_lock); the partial theorem excludes those and the cuts of the outer angles. matrix_to_rotation_6d and matrix44_to_se3_9d are slices and not recorded; matrix_to_pos_rot contains matrix_to_quaternion, see C117."
  },
  {
   "property": "C131",
   "status": "partial",
   "theorems": [
    "PK.C131_angular_distance",
    "PK.C131_acos",
    "PK.C131_fill_matrix",
    "PK.C131_inverse",
    "PK.C131_fk",
    "PK.C131_jacobian_tool",
    "PK.C131_perturbations_partial",
    "PK.C131_slerp_partial",
    "PK.C131_fails_slerp_leaf",
    "PK.C131_fails_slerp_backward",
    "PK.C131_fails_slerp_other",
    "PK.C131_fails_perturbation_axis",
    "PK.C131_fails_from_euler",
    "PK.C131_from_euler",
    "PK.C131_fails_from_euler_other"
   ],
   "note": "Violated by quaternion_slerp, sample_perturbations and quaternion_from_euler (_fails theorems); proved for all other functions that write in place, for slerp with q1 without gradients or nearly parallel pairs and q2 no leaf with gradients, and for perturbations unless they are made perpendicular to an axis with gradients."
  },
  {
   "property": "C132",
   "status": "proved",
   "theorems": [
    "PK.C132_inverse",
    "PK.C132_compose",
    "PK.C132_pipeline",
    "PK.C132_cancels",
    "PK.C132_linear",
    "PK.C132_points",
    "PK.C132_points_flat",
    "PK.C132_round_trip",
    "PK.C132_sequential",
    "PK.C132_normals",
    "PK.C132_pose",
    "PK.C132_translate",
    "PK.C132_rotate_axis_angle",
    "PK.C132_precision"
   ],
   "note": "Leaves are rigid (no Scale, see C31 for its inverse); errors of the machine are those of Model/Float.lean without overflow and underflow."
  },
  {
   "property": "C133",
   "status": "proved",
   "theorems": [
    "PK.C133_finite",
    "PK.C133_formats",
    "PK.C133_isolated",
    "PK.C133_visible"
   ],
   "note": "Zeros are unsigned; offsets and axes of the robot are finite numbers; cos and sin of finite angles have the stated absolute error and are NaN for infinities and NaN."
  },
  {
   "property": "C134",
   "status": "partial",
   "theorems": [
    "PK.C134_error_visible",
    "PK.C134_converged",
    "PK.C134_nan_start",
    "PK.C134_others",
    "PK.C134_returns_partial",
    "PK.C134_fails_svd"
   ],
   "note": "The default solver satisfies it (torch.linalg.solve is taken not to raise for NaN). Violated by PseudoInverseIKWithSVD: C134_fails_svd proves that one NaN target makes the call raise for all problems. C134_others without line search and before limit enforcement. The tensor theorems use unrounded additions in solve itself; C134_converged and C134_nan_start hold for rounded ones too."
  },
  {
   "property": "C135",
   "status": "proved",
   "theorems": [
    "PK.C135_load",
    "PK.C135_end_to_end",
    "PK.C135_posed",
    "PK.C135_from_euler",
    "PK.C135_single"
   ],
   "note": "Relative rounding errors without overflow and underflow (those are in C133). The numbers of the file are parsed exactly and rounded once when stored. Links without origin elements, as in the URDF specification; moving joints declare an axis (the default axis is C25)."
  },
  {
   "property": "C136",
   "status": "proved",
   "theorems": [
    "PK.Sdf.C136_sdf_load",
    "PK.Sdf.C136_sdf_posed",
    "PK.Sdf.C136_sdf_zero",
    "PK.Sdf.C136_sdf",
    "PK.Sdf.C136_sdf_visual",
    "PK.Mjcf.C136_mjcf_posed",
    "PK.Mjcf.C136_mjcf_placed",
    "PK.Mjcf.C136_mjcf",
    "PK.Mjcf.C136_mjcf_geoms",
    "PK.Mjcf.C136_mjcf_load",
    "PK.Mjcf.C136_mjcf_single",
    "PK.Sdf.C136_sdf_single"
   ],
   "note": "Relative rounding errors without overflow and underflow. The declared pose is the one the loaders take from the file: for SDF the angles in the order of C27/C28, for MJCF joints with an anchor as in C29; where these differ from the file formats is recorded under C28 and C29."
  },
  {
   "property": "C137",
   "status": "proved",
   "theorems": [
    "PK.C137_rounding",
    "PK.C137_precision"
   ],
   "note": "Relative rounding errors without overflow and underflow, as in C102. The upstream gradient is taken as given (exact numbers of the machine)."
  },
  {
   "property": "C138",
   "status": "partial",
   "theorems": [
    "PK.C138_rows",
    "PK.C138_spreads",
    "PK.C138_joint_spreads",
    "PK.C138_branches_partial",
    "PK.C138_finite",
    "PK.C138_fails"
   ],
   "note": "Rows, finiteness and the irrelevance of finite values of other branches are proved; infinities and NaN of other branches do reach the gradient (C138_fails, C138_spreads, C138_joint_spreads)."
  },
  {
   "property": "C139",
   "status": "proved",
   "theorems": [
    "PK.C139_exp",
    "PK.C139_precision"
   ],
   "note": "Overflow and underflow are not modelled."
  },
  {
   "property": "C140",
   "status": "proved",
   "theorems": [
    "PK.C140_log",
    "PK.C140_round_trip",
    "PK.C140_precision"
   ],
   "note": "Overflow and underflow are not modelled; angles up to pi - 0.02 (beyond: C43_log_half_turn_fails)."
  },
  {
   "property": "C141",
   "status": "proved",
   "theorems": [
    "PK.C141_rotation_6d",
    "PK.C141_every_pair",
    "PK.C141_round_trip",
    "PK.C141_precision"
   ],
   "note": "Overflow and underflow are not modelled; vectors shorter than 2e-12 are excluded (C42_tiny_input_fails)."
  },
  {
   "property": "C142",
   "status": "proved",
   "theorems": [
    "PK.C142_quaternion",
    "PK.C142_matrix",
    "PK.C142_rotation_vector",
    "PK.C142_round_trip",
    "PK.C142_precision",
    "PK.C142_round_trip_precision"
   ],
   "note": "Overflow and underflow are not modelled; the round trip is for lengths up to pi - 0.05."
  },
  {
   "property": "C143",
   "status": "proved",
   "theorems": [
    "PK.C143_apply",
    "PK.C143_rotation_vector",
    "PK.C143_precision"
   ],
   "note": "Overflow and underflow are not modelled."
  },
  {
   "property": "C144",
   "status": "proved",
   "theorems": [
    "PK.C144_distance",
    "PK.C144_close",
    "PK.C144_precision",
    "PK.C144_no_nan",
    "PK.C144_every_pair",
    "PK.C144_every_batch",
    "PK.C144_every_pair_precision"
   ],
   "note": "Overflow and underflow are not modelled. The sum of the four products is added from left to right."
  },
  {
   "property": "C145",
   "status": "proved",
   "theorems": [
    "PK.C145_arc",
    "PK.C145_slerp",
    "PK.C145_linear",
    "PK.C145_precision"
   ],
   "note": "t is a Python number; overflow and underflow are not modelled."
  },
  {
   "property": "C146",
   "status": "proved",
   "theorems": [
    "PK.C146_acos",
    "PK.C146_precision"
   ],
   "note": "For torch.float64 tensors; overflow and underflow are not modelled."
  },
  {
   "property": "C147",
   "status": "proved",
   "theorems": [
    "PK.C147_cosine",
    "PK.C147_angle",
    "PK.C147_precision",
    "PK.C147_half_turn",
    "PK.C147_every_pair",
    "PK.C147_every_pair_float32",
    "PK.C147_self_not_zero",
    "PK.C147_rejects",
    "PK.C147_rejects_cases"
   ],
   "note": "Overflow and underflow are not modelled; torch.bmm is modelled with a relative error per product."
  },
  {
   "property": "C148",
   "status": "proved",
   "theorems": [
    "PK.C148_no_false_alarm",
    "PK.C148_silent",
    "PK.C148_reflection_warns",
    "PK.C148_scaled_warns",
    "PK.C148_compiling_silent",
    "PK.C148_float32"
   ],
   "note": "torch.det has an absolute error of at most delta B^3 for entries up to B; overflow, underflow and NaN are not modelled."
  }
 ]
}