{
 "C01": {
  "status": "proved",
  "note": "frame names additionally must not begin or end with a newline (the constructor strips them)"
 },
 "C02": {
  "status": "proved",
  "note": ""
 },
 "C03": {
  "status": "proved",
  "note": ""
 },
 "C04": {
  "status": "proved",
  "note": ""
 },
 "C05": {
  "status": "proved",
  "note": ""
 },
 "C06": {
  "status": "proved",
  "note": ""
 },
 "C07": {
  "status": "proved",
  "note": ""
 },
 "C08": {
  "status": "proved",
  "note": "for chains with at least one moving joint; the empty dict on a jointless chain raises IndexError (C08_empty_dict_raises)"
 },
 "C09": {
  "status": "proved",
  "note": "for a non-empty batch; with B = 0 a missing joint goes unnoticed (C09_empty_batch_unnoticed)"
 },
 "C10": {
  "status": "partial",
  "note": "false for one-column tensors (broadcast) and for chains without moving joints; proved for all other widths"
 },
 "C100": {
  "status": "proved",
  "note": "Inputs rigid; a given axis is a unit vector where perpendicular displacements are asked for. torch.randn is taken as independent standard normals (real arithmetic)."
 },
 "C101": {
  "status": "proved",
  "note": "Limits with low < high and one row per joint. torch.rand and torch.randn are taken as independent uniform and standard normal numbers (real arithmetic)."
 },
 "C102": {
  "status": "proved",
  "note": "Arithmetic without overflow and underflow. The linear bounds assume n times the error per frame at most 1 (in p-bit arithmetic 91 n <= 2^p, p >= 10); C102_rounding holds without that. C102_precision assumes stored offsets that are exactly rigid and exactly unit axes and correctly rounded cos and sin; C102_rounding and C102_linear cover stored data and functions with errors."
 },
 "C103": {
  "status": "proved",
  "note": "kind of exception not claimed; SDF schema as the parser has it (see C79); inf/nan inside vectors outside the model"
 },
 "C104": {
  "status": "proved",
  "note": "axis, mesh scale and SDF bounds excluded (C25, C80)"
 },
 "C105": {
  "status": "partial",
  "note": "Proved: what is loaded is the part reachable from the root, without cycles; one frame per link iff the document is a tree; no root is rejected. False: a second tree, a second parent and a joint with an undeclared parent do not raise (C105_forest_fails, C105_two_parents_fails, C105_unknown_parent_fails)."
 },
 "C106": {
  "status": "partial",
  "note": "False for every dictionary that leaves out a joint (C106_missing_joint_fails): the code raises ValueError, as C09 states. Accepted dictionaries mean what the README says."
 },
 "C107": {
  "status": "proved",
  "note": "C107_local_convergence without limit enforcement, C107_enforced with it."
 },
 "C108": {
  "status": "partial",
  "note": "First derivatives of every loss are proved (C108_gradient, C108_jacobian_gradient, C108_smooth). Second derivatives with the default backward pass are wrong: C108_second_order_fails; C108_second_order_partial states exactly which term is missing, and C108_second_order_stationary and C108_second_order_prismatic the cases where it is zero."
 },
 "C109": {
  "status": "proved",
  "note": "C109_reach bounds the distance of the end from both sides; C109_converged_reachable, C109_unreachable and C109_unreachable_limits draw the conclusions for the solver. The examples are a planar arm with links 2 and 1: targets at distance 4 and 1/2 are never reported as converged, and the outer bound is attained."
 },
 "C11": {
  "status": "proved",
  "note": ""
 },
 "C110": {
  "status": "proved",
  "note": "C110_serial, C110_tree; C110_revolute is the simpler bound without prismatic joints."
 },
 "C111": {
  "status": "partial",
  "note": "C111_written_robot_loads_same is the full statement for chains. C111_round_trip_partial (equal object) needs <gazebo> elements without direct text and comments, C111_write_pure_partial (writing changes nothing) no <gazebo> elements; both are false otherwise, with witnesses C111_gazebo_text_lost and C111_second_write_differs."
 },
 "C112": {
  "status": "partial",
  "note": "C112_round_trip_partial is the whole statement for documents whose flags are not given empty; C112_empty_flag_changes refutes it for an empty <use_parent_model_frame/>, and C112_flag_text_ignored shows that any text means True."
 },
 "C113": {
  "status": "proved",
  "note": "C113_get_root is an equivalence for every robot; C113_get_chain and C113_get_chain_error need a tree and distinct joint names. Beside the claim C113_cycle_runs_forever shows that get_chain does not return on a cyclic description."
 },
 "C114": {
  "status": "proved",
  "note": "C114_jacobian and C114_tool for every arithmetic and every ideal robot near the stored numbers; C114_precision for binary arithmetic with q digits. Overflow and underflow are outside, as for C102."
 },
 "C115": {
  "status": "proved",
  "note": "C115_matrix_to_quaternion, C115_quaternion_to_matrix, C115_round_trip for every arithmetic. Overflow and underflow are outside, as for C102."
 },
 "C116": {
  "status": "proved",
  "note": "C116_errors, C116_converged, C116_within_limits for every arithmetic and every proposed step; C116_precision for binary arithmetic with q digits. Overflow and underflow are outside, as for C102; torch.norm and atan2 enter with their relative errors; a batch is evaluated row by row."
 },
 "C117": {
  "status": "partial",
  "note": "Proved: quaternion_to_matrix, axis_and_angle_to_matrix_33, acos_linear_extrapolation at every input; the others away from the exceptional sets (_partial). The exceptional sets are proved to give NaN (C117_fails_*), so the full statement is false. For the two axis-angle conversions, the angle 1e-6 at which the formula changes is excluded. PyTorch's local factors are trusted; arithmetic is exact apart from NaN and infinities."
 },
 "C118": {
  "status": "proved",
  "note": "Exact arithmetic. PyTorch's rules for sums, products, sine and cosine are trusted, and so are the derivatives of the user's loss; in-place writes into T_world_link are recorded as new entries."
 },
 "C119": {
  "status": "proved",
  "note": "Exact arithmetic; PyTorch's rules for the recorded operations are trusted. For so3_exp_map on the sphere |v|^2 = eps, where the clamped formula has a kink, the gradient is that of the exact map."
 },
 "C12": {
  "status": "proved",
  "note": ""
 },
 "C120": {
  "status": "proved",
  "note": "Exact arithmetic; PyTorch's rules for the recorded operations are trusted. transform_points without eps. Inputs where a value is itself not finite (zero quaternion, inverted zero factor, points at infinity) are excluded by TRegular."
 },
 "C121": {
  "status": "proved",
  "note": "Exact arithmetic; PyTorch's operations on shapes are trusted as stated in Model/Tensor.lean. Floating-point inputs of one dtype and device. Views are not represented: quaternion_from_euler returns the caller's tensor after the call."
 },
 "C122": {
  "status": "partial",
  "note": "Full statement: poses, gradients and Jacobians for every batch size. Missing: the gradient of an empty batch, which raises (C122_fails_empty_batch); C122_gradient_partial assumes B > 0. Exact arithmetic; PyTorch's operations on shapes are trusted as stated in Model/Tensor.lean and Model/TensorChain.lean."
 },
 "C123": {
  "status": "proved",
  "note": "Exact arithmetic for numeric joint values; rows with values that are not numbers get an arbitrary answer with a non-finite error (Realises). Views are reshapes (strides not modelled). The solver theorems use the default kernel; the SVD kernel is covered by C123_kernel_svd, its behaviour on values that are not numbers is not modelled. C123_batch_keeps_solutions is without line search and limit enforcement, as C59."
 },
 "C124": {
  "status": "proved",
  "note": "Arithmetic is exact; conversions between dtypes round. Integer tensors as points, coordinates or matrices are not in the theorems. Views are reshapes. batch_to_batch=True is not modelled. Shape operators with a batch dimension of their own are refused although the docstring allows them (C124_shape_operator_batched, the disagreement of C69)."
 },
 "C125": {
  "status": "partial",
  "note": "Violated by the defaults: numbers are rounded to float32 (C125_fails_builders, C125_fails_position_list), RotateAxisAngle always returns float32 (C125_fails_rotate_axis_angle), integer points truncate the matrix (C125_fails_integer_points). With the dtype given explicitly and points of the dtype of the transform the statement holds (_partial theorems)."
 },
 "C126": {
  "status": "partial",
  "note": "Violated: the loaders round to float32 before the conversion to float64 (C126_fails). Positions that float32 represents are kept (C126_positions_partial). Exponent ranges of the dtypes are not bounded; the orientation is described by C126_urdf, C126_sdf and C126_mjcf as that of the rounded numbers."
 },
 "C127": {
  "status": "partial",
  "note": "Distance and arccos hold for all shapes; quaternion_slerp for lists of pairs (C127_slerp_partial, C127_lerp). Single pairs, grids, one target for several starts and parameter tensors fail: C127_single_pair_fails, C127_grid_fails, C127_grid4_wrong, C127_one_target_fails, C127_one_target4_wrong, C127_steps_fail."
 },
 "C128": {
  "status": "partial",
  "note": "Row-wise for every batch; log and exp undo each other for angles up to pi - bandAngle. Violated at half turns, for the empty batch, and by the errors of so3_relative_angle for wrong shapes (_fails theorems)."
 },
 "C129": {
  "status": "proved",
  "note": "Axis and draws have the dtype of the transform; the third part of C129_sizes is about the default (perpendicular) translation."
 },
 "C13": {
  "status": "partial",
  "note": "false: exclude_fixed=False never returns fixed joints and drops the root's joint; proved: it returns the moving joints below the root"
 },
 "C130": {
  "status": "partial",
  "note": "matrix_to_euler_angles returns NaN gradients at gimbal lock (C130_fails_gimbal_lock); the partial theorem excludes those and the cuts of the outer angles. matrix_to_rotation_6d and matrix44_to_se3_9d are slices and not recorded; matrix_to_pos_rot contains matrix_to_quaternion, see C117."
 },
 "C131": {
  "status": "partial",
  "note": "Violated by quaternion_slerp, sample_perturbations and quaternion_from_euler (_fails theorems); proved for all other functions that write in place, for slerp with q1 without gradients or nearly parallel pairs and q2 no leaf with gradients, and for perturbations unless they are made perpendicular to an axis with gradients."
 },
 "C132": {
  "status": "proved",
  "note": "Leaves are rigid (no Scale, see C31 for its inverse); errors of the machine are those of Model/Float.lean without overflow and underflow."
 },
 "C133": {
  "status": "proved",
  "note": "Zeros are unsigned; offsets and axes of the robot are finite numbers; cos and sin of finite angles have the stated absolute error and are NaN for infinities and NaN."
 },
 "C134": {
  "status": "partial",
  "note": "The default solver satisfies it (torch.linalg.solve is taken not to raise for NaN). Violated by PseudoInverseIKWithSVD: C134_fails_svd proves that one NaN target makes the call raise for all problems. C134_others without line search and before limit enforcement. The tensor theorems use unrounded additions in solve itself; C134_converged and C134_nan_start hold for rounded ones too."
 },
 "C135": {
  "status": "proved",
  "note": "Relative rounding errors without overflow and underflow (those are in C133). The numbers of the file are parsed exactly and rounded once when stored. Links without origin elements, as in the URDF specification; moving joints declare an axis (the default axis is C25)."
 },
 "C136": {
  "status": "proved",
  "note": "Relative rounding errors without overflow and underflow. The declared pose is the one the loaders take from the file: for SDF the angles in the order of C27/C28, for MJCF joints with an anchor as in C29; where these differ from the file formats is recorded under C28 and C29."
 },
 "C137": {
  "status": "proved",
  "note": "Relative rounding errors without overflow and underflow, as in C102. The upstream gradient is taken as given (exact numbers of the machine)."
 },
 "C138": {
  "status": "partial",
  "note": "Rows, finiteness and the irrelevance of finite values of other branches are proved; infinities and NaN of other branches do reach the gradient (C138_fails, C138_spreads, C138_joint_spreads)."
 },
 "C139": {
  "status": "proved",
  "note": "Overflow and underflow are not modelled."
 },
 "C14": {
  "status": "proved",
  "note": ""
 },
 "C140": {
  "status": "proved",
  "note": "Overflow and underflow are not modelled; angles up to pi - 0.02 (beyond: C43_log_half_turn_fails)."
 },
 "C141": {
  "status": "proved",
  "note": "Overflow and underflow are not modelled; vectors shorter than 2e-12 are excluded (C42_tiny_input_fails)."
 },
 "C142": {
  "status": "proved",
  "note": "Overflow and underflow are not modelled; the round trip is for lengths up to pi - 0.05."
 },
 "C143": {
  "status": "proved",
  "note": "Overflow and underflow are not modelled."
 },
 "C144": {
  "status": "proved",
  "note": "Overflow and underflow are not modelled. The sum of the four products is added from left to right."
 },
 "C145": {
  "status": "proved",
  "note": "t is a Python number; overflow and underflow are not modelled."
 },
 "C146": {
  "status": "proved",
  "note": "For torch.float64 tensors; overflow and underflow are not modelled."
 },
 "C147": {
  "status": "proved",
  "note": "Overflow and underflow are not modelled; torch.bmm is modelled with a relative error per product."
 },
 "C148": {
  "status": "proved",
  "note": "torch.det has an absolute error of at most delta B^3 for entries up to B; overflow, underflow and NaN are not modelled."
 },
 "C15": {
  "status": "proved",
  "note": ""
 },
 "C16": {
  "status": "proved",
  "note": ""
 },
 "C17": {
  "status": "proved",
  "note": ""
 },
 "C18": {
  "status": "proved",
  "note": "tool matrices are affine (last row 0 0 0 1)"
 },
 "C19": {
  "status": "proved",
  "note": ""
 },
 "C20": {
  "status": "proved",
  "note": ""
 },
 "C21": {
  "status": "partial",
  "note": "proved for tensors, arrays, flat lists and non-empty dicts of batched values; false for nested lists (C21_fails_nested_list) and dicts of numbers, which raise IndexError whatever they hold"
 },
 "C22": {
  "status": "proved",
  "note": "Proved for the parsed description and, through a writer with arbitrary number syntax, for the document. fuel is the recursion depth Python allows (at least the number of links)."
 },
 "C23": {
  "status": "proved",
  "note": ""
 },
 "C24": {
  "status": "partial",
  "note": "False as stated: a single link raises UnboundLocalError (C24_single_link_fails), floating and planar joints raise KeyError (C24_other_types_fail). Proved for trees with at least one joint and the four supported types."
 },
 "C25": {
  "status": "partial",
  "note": "False as stated: the default axis is (0,0,1) (C25_default_axis_fails, for every tree). Declared axes are used."
 },
 "C26": {
  "status": "partial",
  "note": "False for a continuous joint whose limit element gives only effort and velocity: lower = upper = 0 (C26_continuous_fails). Proved for limits with declared bounds and joints without limit element."
 },
 "C27": {
  "status": "proved",
  "note": "Proved for the parsed model and, through a writer with arbitrary number syntax, for the document. fuel is the recursion depth Python allows (at least the number of links). Poses are those the loader converts to, see C28 for the convention."
 },
 "C28": {
  "status": "partial",
  "note": "False as stated: the first angle is applied about z, the last about x, the reverse of the SDF convention (C28_conversion for every pose, C28_fails through forward kinematics). Proved when roll equals yaw (in particular pure translation or pitch)."
 },
 "C29": {
  "status": "partial",
  "note": "False when a joint anchor (jnt_pos) is away from the body origin: the anchor is applied but not undone (C29_fails; C29_child_pose states the computed pose for every supported model). Proved with anchors at the body origins, then for all configurations, bodies and sites."
 },
 "C30": {
  "status": "proved",
  "note": ""
 },
 "C31": {
  "status": "partial",
  "note": "plain transforms must be rigid; Transform3d().scale(2).inverse() and Scale(2).clone().inverse() are wrong (C31_fails_scaled, C31_fails_clone)"
 },
 "C32": {
  "status": "proved",
  "note": ""
 },
 "C33": {
  "status": "proved",
  "note": ""
 },
 "C34": {
  "status": "partial",
  "note": "a batch of exactly three Euler triples is read as one matrix (C34_three_euler_triples_fails)"
 },
 "C35": {
  "status": "proved",
  "note": ""
 },
 "C36": {
  "status": "proved",
  "note": ""
 },
 "C37": {
  "status": "proved",
  "note": ""
 },
 "C38": {
  "status": "proved",
  "note": "exact outside the band 0<|v|<1e-6 where the code uses a truncated series, and away from the full turn"
 },
 "C39": {
  "status": "proved",
  "note": ""
 },
 "C40": {
  "status": "partial",
  "note": "false at gimbal lock (witness C40_gimbal_lock_fails); proved for every rotation away from it, all 12 conventions"
 },
 "C41": {
  "status": "proved",
  "note": ""
 },
 "C42": {
  "status": "proved",
  "note": "F.normalize does not normalise vectors shorter than 1e-12; C42_tiny_input_fails shows the size condition is needed."
 },
 "C43": {
  "status": "partial",
  "note": "Exact for angles in [bandAngle, pi - bandAngle] (bandAngle = arccos(1-1e-4)); error bounds below; false above, C43_log_half_turn_fails."
 },
 "C44": {
  "status": "proved",
  "note": ""
 },
 "C45": {
  "status": "partial",
  "note": "The code zeroes the whole batch when every pair is close and never otherwise: C45_batch_dependent. Error at most 0.0201 rad for every batch."
 },
 "C46": {
  "status": "partial",
  "note": "NaN for an identical pair next to a distant one (C46_identical_pair_nan); result not unit in the linear branch (C46_lerp_not_unit)."
 },
 "C47": {
  "status": "partial",
  "note": "Both functions write into the caller's tensor: C47_quaternion_from_euler_mutates, C47_slerp_mutates."
 },
 "C48": {
  "status": "proved",
  "note": ""
 },
 "C49": {
  "status": "proved",
  "note": ""
 },
 "C50": {
  "status": "partial",
  "note": "converged / converged_any are exact for every history; converged_pos_any and converged_rot_any are never written by the code, so the last clause is refuted (C50_fails_pos_any, C50_fails_witness)."
 },
 "C51": {
  "status": "proved",
  "note": "For every evaluation that reports the pose error of the Jacobian pose (ReportsError; holds for both kernels and exists for every chain, realises_exists)."
 },
 "C52": {
  "status": "proved",
  "note": "Steps at numeric rows are numbers (FiniteSteps), which holds for the default kernel (Realises.finiteSteps)."
 },
 "C53": {
  "status": "partial",
  "note": "Holds when every revolute joint has two finite limits; with enforcement and some finite limit, a revolute joint lacking one gets NaN or an infinite value in every solution (C53_fails_unlimited) and is never reported converged (C53_fails_unconverged)."
 },
 "C54": {
  "status": "proved",
  "note": ""
 },
 "C55": {
  "status": "partial",
  "note": "Proved for dof >= 6 with any valid reduced SVD; for dof < 6 the kernel raises RuntimeError (C55_fails_few_joints)."
 },
 "C56": {
  "status": "proved",
  "note": ""
 },
 "C57": {
  "status": "partial",
  "note": "The keep mask follows the code exactly; \"all\" and \"any\" have the opposite effect of the documentation (C57_fails_all, C57_fails_any); the ratio equivalents hold for fewer than 1000 retries and fail beyond (C57_fails_many_retries)."
 },
 "C58": {
  "status": "proved",
  "note": "Statement narrowed: between 0 and 1e-6 rad the length of the rotation part is exact only up to a relative 1e-13 (Taylor branch)."
 },
 "C59": {
  "status": "proved",
  "note": ""
 },
 "C60": {
  "status": "proved",
  "note": ""
 },
 "C61": {
  "status": "proved",
  "note": ""
 },
 "C62": {
  "status": "partial",
  "note": "(R, dof) tensors are assigned as stated; a batched (N, R, dof) tensor is rejected unless R = dof (C62_fails_batched), in which case it is assigned as stated (C62_square_batch)."
 },
 "C63": {
  "status": "partial",
  "note": "false: a tensor cached before to() stays on the old device (C63_fails, for every chain, frames and devices); proved when these frames were not asked for before the last to()"
 },
 "C64": {
  "status": "proved",
  "note": ""
 },
 "C65": {
  "status": "proved",
  "note": ""
 },
 "C66": {
  "status": "partial",
  "note": "proved for lists, 1-D and one-row tensors; false for dicts: jacobian documents them but raises RuntimeError, forward_kinematics raises IndexError on a dict of numbers (C21_number_dict_raises)"
 },
 "C67": {
  "status": "partial",
  "note": "the code applies builders in the opposite of the documented order (C67_documented_order_fails); the order actually used is proved"
 },
 "C68": {
  "status": "partial",
  "note": "Translate/Scale/Rotate with dtype float64 report float32, so to(dtype=float32) returns a float64 matrix (C68_subclass_dtype_fails)"
 },
 "C69": {
  "status": "partial",
  "note": "the documented (N,P,3,3) input always raises (C69_four_dim_fails)"
 },
 "C70": {
  "status": "proved",
  "note": ""
 },
 "C71": {
  "status": "proved",
  "note": ""
 },
 "C72": {
  "status": "proved",
  "note": ""
 },
 "C73": {
  "status": "partial",
  "note": "false when a caller changes a returned list or tensor in place, because the cached object itself is handed out (C73_fails_names, C73_fails_indices); proved for every program that does not"
 },
 "C74": {
  "status": "proved",
  "note": ""
 },
 "C75": {
  "status": "partial",
  "note": "Robots without mimic elements. The loader ignores mimic: C75_fails."
 },
 "C76": {
  "status": "proved",
  "note": ""
 },
 "C77": {
  "status": "proved",
  "note": "Trees with distinct names, non-zero axes, links without visuals (URDF, SDF)."
 },
 "C78": {
  "status": "partial",
  "note": "Joint poses that are absent or commute with the joint motion; the loader ignores the pose: C78_fails."
 },
 "C79": {
  "status": "partial",
  "note": "Models with an inertial per link, an axis per joint and at least one joint; the other cases fail: C79_no_inertial_fails, C79_no_axis_fails, C79_single_link_fails, C79_world_fails, C79_mesh_uri_fails."
 },
 "C80": {
  "status": "partial",
  "note": "Joints with both bounds or none; with one bound loading raises TypeError: C80_one_bound_fails."
 },
 "C81": {
  "status": "partial",
  "note": "Limited joints; an unlimited joint is reported with its range (0, 0): C81_fails."
 },
 "C82": {
  "status": "partial",
  "note": "Loads exactly when every body has at most one joint, a hinge or slide (C82_loads_iff); C82_fails."
 },
 "C83": {
  "status": "proved",
  "note": ""
 },
 "C84": {
  "status": "partial",
  "note": "Distinct names; unnamed elements overwrite each other: C84_fails."
 },
 "C85": {
  "status": "proved",
  "note": ""
 },
 "C86": {
  "status": "proved",
  "note": ""
 },
 "C87": {
  "status": "proved",
  "note": ""
 },
 "C88": {
  "status": "proved",
  "note": ""
 },
 "C89": {
  "status": "proved",
  "note": ""
 },
 "C90": {
  "status": "proved",
  "note": ""
 },
 "C91": {
  "status": "proved",
  "note": "Targets not half a turn away; rotation errors zero or at least 1e-6 rad."
 },
 "C92": {
  "status": "partial",
  "note": "URDF: one visual per link, the first, is proved shown as declared; other visuals are lost, links without visuals get an empty one, capsules lose their shape (C92_urdf_fails). SDF: all visuals in order with shape and dimensions; poses only when roll = yaw (C92_sdf_pose_fails), no scaled meshes (C92_sdf_scale_fails). MJCF: all geoms in order with pose, code and size; the code is not one of Visual.TYPES (C92_mjcf_type_fails)."
 },
 "C93": {
  "status": "proved",
  "note": "Tags only: dtype and device of every tensor; torch operand rules are definitions of the model. Values are in C01, C17 and others."
 },
 "C94": {
  "status": "partial",
  "note": "Holds for lists, arrays, Transform3d objects and CPU tensors; false for tensors on any other device (C94_location_tensor_fails)."
 },
 "C95": {
  "status": "partial",
  "note": "Holds on the CPU with the dtype of the frames. False for every other device, for a dtype other than that of the frames, and for serial chains of moved chains (C95_device_fails, C95_dtype_fails, C95_serial_fails)."
 },
 "C96": {
  "status": "partial",
  "note": "Holds for given and uniformly sampled configurations of the chain dtype and targets not wider than the chain. False for gaussian sampling on float64 chains, float32 limits on float64 chains, float64 targets on float32 chains."
 },
 "C97": {
  "status": "partial",
  "note": "C97_independent_partial: after any program, the result of clone, inverse, stack, compose with arguments, the builders and the constructors is independent of every earlier tensor and transform, in both directions, under any later program.  C97_to_copy_partial: the same for to(copy=True) when dtype or device changes.  Violated by to(device, copy=True) with unchanged dtype and device (C97_to_copy_fails: the copy shares the matrix although the docstring promises a new object) and by compose() without arguments (C97_compose_fails).  C97_get_matrix, C97_of_matrix, C97_item say what is shared on purpose; C97_values: values agree with the model of Transform3d."
 },
 "C98": {
  "status": "proved",
  "note": "C98_source_unchanged: construction changes no earlier object.  C98_source_kept: programs that go through the frames of the serial chain change nothing of the source.  C98_serial_kept: programs that do not go through them do not change the serial chain.  C98_value, C98_raises: the constructed frames and the exceptions are those of the value model, so C19 and C20 apply to the objects.  Non-trivial case: exProgram."
 },
 "C99": {
  "status": "proved",
  "note": "The law of the pseudo-random generator is taken to be that of independent standard normals (real arithmetic)."
 }
}