{"id": "C01", "title": "FK is the product of local transforms along the tree path", "statement": "For every kinematic tree with distinct frame names and distinct moving-joint names, Chain(root).forward_kinematics(th) succeeds, its keys are exactly the frame names, and the pose reported for a frame is the product, over the frames on the path from the root to it, of link offset @ joint offset @ joint motion (Rodrigues rotation / translation along the axis / identity) at that joint's value in th.", "quantifier": "every tree (any branching, depth and size), every batch size, every joint configuration", "why_tests_cant": "trees and joint values are unbounded; tests sample four robots and a few configurations", "anchors": ["src/pytorch_kinematics/chain.py:Chain.__init__", "src/pytorch_kinematics/chain.py:_fk_impl", "src/pytorch_kinematics/chain.py:Chain.forward_kinematics_tensor", "src/pytorch_kinematics/chain.py:Chain.forward_kinematics"]}
{"id": "C02", "title": "Every FK pose is a rigid transform", "statement": "If the link and joint offsets are rigid and the axes of moving joints are non-zero, then every pose returned by forward_kinematics has a rotation block in SO(3) and bottom row (0,0,0,1).", "quantifier": "every tree, every configuration, every frame", "why_tests_cant": "real-valued joint space", "anchors": ["src/pytorch_kinematics/chain.py:_fk_impl", "src/pytorch_kinematics/chain.py:Chain.forward_kinematics", "src/pytorch_kinematics/frame.py:Joint.__init__"]}
{"id": "C03", "title": "Batched FK is row-wise", "statement": "Row b of the result of forward_kinematics on a batch depends only on row b of th, and equals the result of calling it on that single row.", "quantifier": "every tree, every batch size, every pair of batches agreeing on one row", "why_tests_cant": "universally quantified batches", "anchors": ["src/pytorch_kinematics/chain.py:_fk_impl", "src/pytorch_kinematics/chain.py:Chain.forward_kinematics"]}
{"id": "C04", "title": "Frame-subset queries agree with the full query", "statement": "forward_kinematics(th, frame_indices=get_frame_indices(*names)) returns exactly the requested frames with the same poses as the unrestricted call; an unknown frame name raises KeyError.", "quantifier": "every tree, every list of names, every configuration", "why_tests_cant": "every subset of frames", "anchors": ["src/pytorch_kinematics/chain.py:Chain.forward_kinematics", "src/pytorch_kinematics/chain.py:Chain.get_frame_indices", "src/pytorch_kinematics/chain.py:Chain.get_all_frame_indices"]}
{"id": "C05", "title": "Moving a joint moves only its descendants", "statement": "Changing the value of one joint leaves the pose of every frame that is not at or below that joint unchanged.", "quantifier": "every tree, joint, configuration and change", "why_tests_cant": "unbounded trees and real-valued changes", "anchors": ["src/pytorch_kinematics/chain.py:_fk_impl"]}
{"id": "C06", "title": "Revolute joints are 2*pi periodic", "statement": "Adding any integer multiple of 2*pi to a revolute joint leaves every FK pose unchanged.", "quantifier": "every tree, revolute joint, integer and configuration", "why_tests_cant": "infinitely many shifts", "anchors": ["src/pytorch_kinematics/chain.py:_fk_impl", "src/pytorch_kinematics/transforms/rotation_conversions.py:axis_and_angle_to_matrix_33"]}
{"id": "C07", "title": "Joint columns follow get_joint_parameter_names", "statement": "Column i of th drives exactly the joint get_joint_parameter_names()[i], which is the depth-first pre-order of the moving joints; n_joints is its length, and get_joint_limits/velocity/effort arrays and low/high use the same order with -inf/+inf for absent limits.", "quantifier": "every tree", "why_tests_cant": "every tree shape: frame indices are breadth-first while joint indices are depth-first", "anchors": ["src/pytorch_kinematics/chain.py:Chain.get_joint_parameter_names", "src/pytorch_kinematics/chain.py:Chain._get_joints", "src/pytorch_kinematics/chain.py:Chain.__init__", "src/pytorch_kinematics/chain.py:Chain._get_joint_limits"]}
{"id": "C08", "title": "Dictionary joint input is equivalent to tensor input", "statement": "On a chain with at least one moving joint, passing joint values as a dict gives the same poses as the tensor whose columns are ordered by get_joint_parameter_names, independently of the dict's insertion order.", "quantifier": "every tree, every dict listing each joint once, every permutation of it", "why_tests_cant": "all insertion orders and values", "anchors": ["src/pytorch_kinematics/chain.py:Chain.ensure_tensor", "src/pytorch_kinematics/chain.py:Chain.forward_kinematics"]}
{"id": "C09", "title": "Missing or unknown joints in a dictionary are rejected", "statement": "For a non-empty batch, ensure_tensor on a dict that misses a joint, has a NaN value or names an unknown joint raises; it never silently fills in a value.", "quantifier": "every tree and every dict", "why_tests_cant": "all subsets of the joints", "anchors": ["src/pytorch_kinematics/chain.py:Chain.ensure_tensor"]}
{"id": "C10", "title": "A joint vector of the wrong length is rejected", "statement": "forward_kinematics on a (B, m) tensor with m different from n_joints raises.", "quantifier": "every tree, every m", "why_tests_cant": "every wrong length", "anchors": ["src/pytorch_kinematics/chain.py:_fk_impl", "src/pytorch_kinematics/chain.py:Chain.forward_kinematics", "src/pytorch_kinematics/transforms/rotation_conversions.py:axis_and_angle_to_matrix_44", "src/pytorch_kinematics/transforms/rotation_conversions.py:axis_and_d_to_pris_matrix"]}
{"id": "C11", "title": "Frame indices are a consistent topological numbering", "statement": "frame_to_idx and idx_to_frame are mutually inverse bijections between the frame names and 0..N-1, the root is 0, every parent has a smaller index than its child, and parents_indices[i] is exactly the root-to-frame path.", "quantifier": "every tree with distinct names", "why_tests_cant": "every tree", "anchors": ["src/pytorch_kinematics/chain.py:Chain.__init__"]}
{"id": "C12", "title": "Name listing and lookup are complete", "statement": "get_frame_names(exclude_fixed=False), get_link_names list every name exactly once in depth-first order of first occurrence; find_frame/find_link/find_joint return the first match in depth-first order and None exactly when there is none.", "quantifier": "every tree and every name", "why_tests_cant": "every tree, duplicates included", "anchors": ["src/pytorch_kinematics/chain.py:Chain.get_frame_names", "src/pytorch_kinematics/chain.py:Chain.get_link_names", "src/pytorch_kinematics/chain.py:Chain.find_frame", "src/pytorch_kinematics/chain.py:Chain.find_link", "src/pytorch_kinematics/chain.py:Chain.find_joint"]}
{"id": "C13", "title": "get_joints(exclude_fixed=False) returns all joints", "statement": "get_joints(exclude_fixed=False) returns every joint of the tree, fixed ones included.", "quantifier": "every tree", "why_tests_cant": "every tree", "anchors": ["src/pytorch_kinematics/chain.py:Chain.get_joints", "src/pytorch_kinematics/chain.py:Chain._get_joints"]}
{"id": "C14", "title": "get_joints_and_child_links yields each moving joint with its subtree's links", "statement": "The generator yields each non-fixed joint exactly once, paired with exactly the links of the frames at or below it.", "quantifier": "every tree", "why_tests_cant": "every tree", "anchors": ["src/pytorch_kinematics/chain.py:Chain.get_joints_and_child_links"]}
{"id": "C15", "title": "clamp projects onto the joint limits", "statement": "Chain.clamp returns values inside [low, high] for every joint with low<=high, leaves values already inside unchanged and is idempotent; joints without limits are never changed.", "quantifier": "every chain and configuration", "why_tests_cant": "real-valued configurations and limits, infinities included", "anchors": ["src/pytorch_kinematics/chain.py:Chain.clamp", "src/pytorch_kinematics/chain.py:Chain._get_joint_limits", "src/pytorch_kinematics/frame.py:Joint.clamp"]}
{"id": "C16", "title": "The analytical FK backward is the true gradient", "statement": "For every upstream gradient on all frame poses, the gradient the backward pass returns for joint j is the derivative with respect to joint j of the upstream-weighted sum of all pose entries of forward_kinematics_tensor.", "quantifier": "every tree, every configuration, every upstream gradient, every joint", "why_tests_cant": "tests compare with autograd at a few sampled points and robots", "anchors": ["src/pytorch_kinematics/chain.py:_FKAnalyticalBackward.backward", "src/pytorch_kinematics/chain.py:Chain.forward_kinematics_tensor"]}
{"id": "C17", "title": "The Jacobian is the derivative of FK", "statement": "For a serial chain, the first three rows of column j of jacobian(th) are the derivative of the end-effector position with respect to joint j, and the last three rows w satisfy dR/dq_j = hat(w) R for the end-effector rotation R.", "quantifier": "every serial chain, configuration and joint", "why_tests_cant": "tests sample configurations and use finite differences", "anchors": ["src/pytorch_kinematics/chain.py:SerialChain.jacobian_tensor", "src/pytorch_kinematics/chain.py:SerialChain.jacobian", "src/pytorch_kinematics/jacobian.py:calc_jacobian"]}
{"id": "C18", "title": "The tool Jacobian is the Jacobian of the tool point", "statement": "jacobian(th, locations=tool) is the geometric Jacobian of the frame T_ee @ tool, and the pose returned with ret_eef_pose is T_ee @ tool.", "quantifier": "every serial chain, configuration, joint and tool transform", "why_tests_cant": "real-valued tool offsets", "anchors": ["src/pytorch_kinematics/chain.py:SerialChain.jacobian"]}
{"id": "C19", "title": "A SerialChain reports poses relative to its root frame", "statement": "For every descendant end of root, pose_full(end) = pose_full(root) @ pose_serial(end), and the same for every frame on the path; the root itself is at the identity.", "quantifier": "every tree, every pair root/end, every configuration", "why_tests_cant": "every pair of frames of every tree", "anchors": ["src/pytorch_kinematics/chain.py:SerialChain.__init__", "src/pytorch_kinematics/chain.py:SerialChain.forward_kinematics"]}
{"id": "C20", "title": "A SerialChain consists of exactly the path frames", "statement": "Its frames are the path from root to end, its joints are the moving joints strictly below root on that path in order, and construction raises ValueError/KeyError exactly when the root name is unknown / the end frame is not at or below root.", "quantifier": "every tree, every pair of names", "why_tests_cant": "every pair of names", "anchors": ["src/pytorch_kinematics/chain.py:SerialChain.__init__"]}
{"id": "C21", "title": "SerialChain.forward_kinematics rejects too few joint values", "statement": "Passing fewer values than the chain has joints raises ValueError, whatever the input type.", "quantifier": "every serial chain and input", "why_tests_cant": "every wrong length and input type", "anchors": ["src/pytorch_kinematics/chain.py:SerialChain.convert_serial_inputs_to_chain_inputs", "src/pytorch_kinematics/chain.py:get_n_joints", "src/pytorch_kinematics/chain.py:get_batch_size"]}
{"id": "C22", "title": "URDF loading preserves the link tree", "statement": "For every URDF with at least one joint, all joints of type revolute, continuous, prismatic or fixed, that form a tree (what happens otherwise is C24), the loaded chain has exactly one frame per link, each frame's parent is its joint's parent link, and each joint's type, axis, limits are those declared.", "quantifier": "every URDF robot description forming a tree, in any order of joints", "why_tests_cant": "every joint order and tree shape", "anchors": ["src/pytorch_kinematics/urdf.py:build_chain_from_urdf", "src/pytorch_kinematics/urdf.py:_build_chain_recurse"]}
{"id": "C23", "title": "URDF origins follow the fixed-axis roll-pitch-yaw convention", "statement": "At a fixed joint or zero joint value, the pose of the child frame in its parent is translation(xyz) @ Rz(yaw) @ Ry(pitch) @ Rx(roll).", "quantifier": "every xyz and rpy", "why_tests_cant": "real-valued angles", "anchors": ["src/pytorch_kinematics/urdf.py:_convert_transform", "src/pytorch_kinematics/transforms/rotation_conversions.py:quaternion_from_euler"]}
{"id": "C24", "title": "Every valid URDF loads", "statement": "A URDF with one link and no joints loads as a single-frame chain.", "quantifier": "every valid URDF", "why_tests_cant": "existence of a failing input", "anchors": ["src/pytorch_kinematics/urdf.py:build_chain_from_urdf"]}
{"id": "C25", "title": "A URDF joint without an axis uses the URDF default axis", "statement": "A moving URDF joint with no <axis> element rotates about (1,0,0), the default of the URDF specification.", "quantifier": "every URDF joint without axis", "why_tests_cant": "existence of a failing input", "anchors": ["src/pytorch_kinematics/urdf.py:_build_chain_recurse", "src/pytorch_kinematics/frame.py:Joint.__init__"]}
{"id": "C26", "title": "URDF limits are those declared, continuous joints are unlimited", "statement": "Joint limits equal the declared lower/upper; a continuous joint has no position limits, even when its <limit> element gives only effort and velocity.", "quantifier": "every URDF joint", "why_tests_cant": "existence of a failing input", "anchors": ["src/pytorch_kinematics/urdf.py:_build_chain_recurse", "src/pytorch_kinematics/urdf_parser_py/urdf.py:JointLimit"]}
{"id": "C27", "title": "SDF loading places links at their declared poses", "statement": "With all joints at zero, forward_kinematics reports every SDF link at the pose of its <pose> element as the loader converts it.", "quantifier": "every SDF model whose joints form a tree", "why_tests_cant": "every tree", "anchors": ["src/pytorch_kinematics/sdf.py:build_chain_from_sdf", "src/pytorch_kinematics/sdf.py:_build_chain_recurse", "src/pytorch_kinematics/sdf.py:_convert_transform"]}
{"id": "C28", "title": "SDF poses use the roll-pitch-yaw convention of SDF", "statement": "A link pose (x,y,z,roll,pitch,yaw) is converted to translation(x,y,z) @ Rz(yaw) Ry(pitch) Rx(roll), as for URDF.", "quantifier": "every pose", "why_tests_cant": "real-valued angles", "anchors": ["src/pytorch_kinematics/sdf.py:_convert_transform", "src/pytorch_kinematics/transforms/rotation_conversions.py:euler_angles_to_matrix"]}
{"id": "C29", "title": "MJCF loading places bodies at their declared poses", "statement": "With all joints at zero, forward_kinematics reports each MJCF body at the product of the body poses down to it.", "quantifier": "every MJCF body tree", "why_tests_cant": "every tree and joint position", "anchors": ["src/pytorch_kinematics/mjcf.py:_build_chain_recurse", "src/pytorch_kinematics/mjcf.py:build_chain_from_mjcf"]}
{"id": "C30", "title": "Transform3d composition is function composition", "statement": "t1.compose(t2,...,tk).transform_points(x) = t1.transform_points(t2.transform_points(...tk.transform_points(x))); compose is associative with the identity as unit.", "quantifier": "every number of affine transforms, batch sizes and points", "why_tests_cant": "real-valued transforms", "anchors": ["src/pytorch_kinematics/transforms/transform3d.py:Transform3d.compose", "src/pytorch_kinematics/transforms/transform3d.py:Transform3d.transform_points", "src/pytorch_kinematics/transforms/transform3d.py:_broadcast_bmm"]}
{"id": "C31", "title": "Transform3d.inverse inverts", "statement": "t.compose(t.inverse()) and t.inverse().compose(t) are the identity for every Transform3d.", "quantifier": "every transform", "why_tests_cant": "real-valued transforms, subclasses", "anchors": ["src/pytorch_kinematics/transforms/transform3d.py:Transform3d.inverse", "src/pytorch_kinematics/transforms/transform3d.py:Translate._get_matrix_inverse", "src/pytorch_kinematics/transforms/transform3d.py:Scale._get_matrix_inverse", "src/pytorch_kinematics/transforms/transform3d.py:Rotate._get_matrix_inverse"]}
{"id": "C32", "title": "Transform3d broadcasting and stacking", "statement": "Batches of sizes N and M combine exactly when N=M or one of them is 1, otherwise ValueError; stack concatenates batches and commutes with transform_points.", "quantifier": "every pair of batch sizes", "why_tests_cant": "every size", "anchors": ["src/pytorch_kinematics/transforms/transform3d.py:_broadcast_bmm", "src/pytorch_kinematics/transforms/transform3d.py:Transform3d.stack", "src/pytorch_kinematics/transforms/transform3d.py:Transform3d.transform_points"]}
{"id": "C33", "title": "Normals stay perpendicular", "statement": "For a rigid transform, transform_normals rotates normals, keeping dot products with transformed tangent vectors.", "quantifier": "every rigid transform, normal and tangent", "why_tests_cant": "real-valued vectors", "anchors": ["src/pytorch_kinematics/transforms/transform3d.py:Transform3d.transform_normals"]}
{"id": "C34", "title": "Transform3d(pos, rot, matrix) assembles the homogeneous matrix", "statement": "The constructor's matrix has rotation block rot (matrix, wxyz quaternion or XYZ Euler angles), last column (pos,1), overriding those of matrix, and last row (0,0,0,1).", "quantifier": "every pos, rot and matrix", "why_tests_cant": "real-valued inputs, three rotation encodings", "anchors": ["src/pytorch_kinematics/transforms/transform3d.py:Transform3d.__init__"]}
{"id": "C35", "title": "quaternion_to_matrix yields rotations", "statement": "For every non-zero quaternion the result is in SO(3), is invariant under non-zero scaling (q and -q agree) and turns the Hamilton product into the matrix product.", "quantifier": "every non-zero quaternion", "why_tests_cant": "real-valued quaternions", "anchors": ["src/pytorch_kinematics/transforms/rotation_conversions.py:quaternion_to_matrix", "src/pytorch_kinematics/transforms/rotation_conversions.py:quaternion_raw_multiply"]}
{"id": "C36", "title": "Quaternion algebra is Hamilton's", "statement": "quaternion_raw_multiply is the Hamilton product; quaternion_multiply/standardize_quaternion return a non-negative real part and the same rotation; quaternion_invert inverts unit quaternions; quaternion_apply(q,p) = quaternion_to_matrix(q) @ p for unit q; xyzw/wxyz conversions are mutually inverse.", "quantifier": "every quaternion and point", "why_tests_cant": "real-valued quaternions", "anchors": ["src/pytorch_kinematics/transforms/rotation_conversions.py:quaternion_raw_multiply", "src/pytorch_kinematics/transforms/rotation_conversions.py:quaternion_multiply", "src/pytorch_kinematics/transforms/rotation_conversions.py:standardize_quaternion", "src/pytorch_kinematics/transforms/rotation_conversions.py:quaternion_invert", "src/pytorch_kinematics/transforms/rotation_conversions.py:quaternion_apply", "src/pytorch_kinematics/transforms/rotation_conversions.py:xyzw_to_wxyz", "src/pytorch_kinematics/transforms/rotation_conversions.py:wxyz_to_xyzw"]}
{"id": "C37", "title": "matrix_to_quaternion inverts quaternion_to_matrix", "statement": "For every R in SO(3), matrix_to_quaternion(R) is a unit quaternion with quaternion_to_matrix of it equal to R; for every unit q it returns q or -q.", "quantifier": "every rotation matrix, all four branches", "why_tests_cant": "real-valued rotations, branch boundaries", "anchors": ["src/pytorch_kinematics/transforms/rotation_conversions.py:matrix_to_quaternion", "src/pytorch_kinematics/transforms/rotation_conversions.py:_sqrt_positive_part", "src/pytorch_kinematics/transforms/rotation_conversions.py:quaternion_to_matrix"]}
{"id": "C38", "title": "Axis-angle conversions are mutually inverse", "statement": "quaternion_to_axis_angle(axis_angle_to_quaternion(v)) = v for |v| < 2*pi outside the small-angle band, axis_angle_to_matrix agrees with axis_and_angle_to_matrix_33(v/|v|,|v|), and converting a unit quaternion other than -1 to axis-angle and back gives the same quaternion outside that band (in the band, 0 < rotation angle < 1e-6, a truncated series is used).", "quantifier": "every rotation vector", "why_tests_cant": "real-valued vectors, threshold at 1e-6", "anchors": ["src/pytorch_kinematics/transforms/rotation_conversions.py:axis_angle_to_quaternion", "src/pytorch_kinematics/transforms/rotation_conversions.py:quaternion_to_axis_angle", "src/pytorch_kinematics/transforms/rotation_conversions.py:axis_angle_to_matrix", "src/pytorch_kinematics/transforms/rotation_conversions.py:matrix_to_axis_angle"]}
{"id": "C39", "title": "axis_and_angle_to_matrix_33 is the Rodrigues rotation", "statement": "For a unit axis the result is in SO(3), fixes the axis, is the identity at 0, is additive in the angle, and acts by v cos + (k x v) sin + k (k.v)(1-cos).", "quantifier": "every unit axis and angle", "why_tests_cant": "real-valued angles", "anchors": ["src/pytorch_kinematics/transforms/rotation_conversions.py:axis_and_angle_to_matrix_33", "src/pytorch_kinematics/transforms/rotation_conversions.py:axis_and_angle_to_matrix_44"]}
{"id": "C40", "title": "Euler angle conversions invert each other", "statement": "For each of the 12 conventions and every rotation R, euler_angles_to_matrix(matrix_to_euler_angles(R,c),c) = R; invalid conventions raise ValueError.", "quantifier": "12 conventions, every rotation", "why_tests_cant": "real-valued rotations, gimbal lock", "anchors": ["src/pytorch_kinematics/transforms/rotation_conversions.py:euler_angles_to_matrix", "src/pytorch_kinematics/transforms/rotation_conversions.py:matrix_to_euler_angles", "src/pytorch_kinematics/transforms/rotation_conversions.py:_angle_from_tan", "src/pytorch_kinematics/transforms/rotation_conversions.py:_axis_angle_rotation"]}
{"id": "C41", "title": "quaternion_from_euler matches its axis sequence", "statement": "For each of the 24 axis sequences and all angles, quaternion_to_matrix(quaternion_from_euler(a,s)) is the product of elementary rotations the sequence names (static: right to left, rotating: left to right); the quaternion is unit.", "quantifier": "24 sequences, every angle triple", "why_tests_cant": "real-valued angles", "anchors": ["src/pytorch_kinematics/transforms/rotation_conversions.py:quaternion_from_euler", "src/pytorch_kinematics/transforms/rotation_conversions.py:_AXES2TUPLE", "src/pytorch_kinematics/transforms/rotation_conversions.py:_NEXT_AXIS"]}
{"id": "C42", "title": "6D, 9D and pos/rot pose encodings round-trip", "statement": "rotation_6d_to_matrix(matrix_to_rotation_6d(R)) = R, se3_9d_to_matrix44(matrix44_to_se3_9d(T)) = T, pos_rot_to_matrix(matrix_to_pos_rot(T)) = T for rigid T; rotation_6d_to_matrix is in SO(3) whenever the first vector has length at least 1e-12 and the second is at least 1e-12 away from the line spanned by the first.", "quantifier": "every rigid transform, every independent pair", "why_tests_cant": "real-valued inputs", "anchors": ["src/pytorch_kinematics/transforms/rotation_conversions.py:rotation_6d_to_matrix", "src/pytorch_kinematics/transforms/rotation_conversions.py:matrix_to_rotation_6d", "src/pytorch_kinematics/transforms/rotation_conversions.py:matrix44_to_se3_9d", "src/pytorch_kinematics/transforms/rotation_conversions.py:se3_9d_to_matrix44", "src/pytorch_kinematics/transforms/rotation_conversions.py:matrix_to_pos_rot", "src/pytorch_kinematics/transforms/rotation_conversions.py:pos_rot_to_matrix"]}
{"id": "C43", "title": "so3_exp_map and so3_log_map invert each other", "statement": "so3_exp_map(v) is the rotation by |v| about v outside its small-angle clamp, and so3_log_map(so3_exp_map(v)) = v for |v| < pi; so3_exp_map(so3_log_map(R)) = R for every rotation R.", "quantifier": "every vector, every rotation", "why_tests_cant": "real-valued inputs, angle pi", "anchors": ["src/pytorch_kinematics/transforms/so3.py:so3_exp_map", "src/pytorch_kinematics/transforms/so3.py:_so3_exp_map", "src/pytorch_kinematics/transforms/so3.py:so3_log_map", "src/pytorch_kinematics/transforms/so3.py:hat", "src/pytorch_kinematics/transforms/so3.py:hat_inv", "src/pytorch_kinematics/transforms/so3.py:so3_rotation_angle", "src/pytorch_kinematics/transforms/so3.py:so3_relative_angle"]}
{"id": "C44", "title": "acos_linear_extrapolation extends acos", "statement": "It equals acos between the bounds, is linear outside, continuous and strictly decreasing everywhere; bad bounds raise ValueError.", "quantifier": "every bound pair and argument", "why_tests_cant": "real-valued arguments", "anchors": ["src/pytorch_kinematics/transforms/math.py:acos_linear_extrapolation", "src/pytorch_kinematics/transforms/math.py:_acos_linear_approximation", "src/pytorch_kinematics/transforms/math.py:_dacos_dx"]}
{"id": "C45", "title": "quaternion_angular_distance is a per-pair rotation angle", "statement": "For unit quaternions the distance is 2*arccos|q1.q2|, in [0,pi], symmetric, sign invariant, and each batch element depends only on its own pair.", "quantifier": "every batch of unit quaternions", "why_tests_cant": "every batch composition", "anchors": ["src/pytorch_kinematics/transforms/math.py:quaternion_angular_distance", "src/pytorch_kinematics/transforms/math.py:quaternion_close"]}
{"id": "C46", "title": "quaternion_slerp interpolates", "statement": "slerp is q1 at t=0, +-q2 at t=1, and a unit quaternion for every t; each batch element depends only on its own inputs.", "quantifier": "every batch of unit quaternions, every t", "why_tests_cant": "every batch composition", "anchors": ["src/pytorch_kinematics/transforms/math.py:quaternion_slerp"]}
{"id": "C47", "title": "Conversions do not modify their arguments", "statement": "Calling quaternion_from_euler or quaternion_slerp leaves the caller's tensors unchanged, so repeating a call gives the same result.", "quantifier": "every input and call history", "why_tests_cant": "history of calls on one tensor", "anchors": ["src/pytorch_kinematics/transforms/rotation_conversions.py:quaternion_from_euler", "src/pytorch_kinematics/transforms/math.py:quaternion_slerp"]}
{"id": "C48", "title": "Perturbations of a rigid transform are rigid", "statement": "sample_perturbations returns rigid transforms for rigid input; with a unit rotation axis the translation noise is orthogonal to it when requested.", "quantifier": "every random draw, every rigid transform", "why_tests_cant": "every random draw", "anchors": ["src/pytorch_kinematics/transforms/perturbation.py:sample_perturbations"]}
{"id": "C49", "title": "Converged IK solutions are sticky", "statement": "Over every sequence of IKSolution.update calls, once a retry is converged its solution and errors never change and it stays converged; remaining only shrinks.", "quantifier": "every history of updates", "why_tests_cant": "every history", "anchors": ["src/pytorch_kinematics/ik.py:IKSolution.update", "src/pytorch_kinematics/ik.py:IKSolution.update_remaining_with_keep_mask"]}
{"id": "C50", "title": "IKSolution flags summarise the recorded errors", "statement": "converged[i,r] implies err_pos<pos_tolerance and err_rot<rot_tolerance; converged_any[i] iff some retry converged; converged_pos_any/converged_rot_any iff some retry's position/rotation converged.", "quantifier": "every history of updates", "why_tests_cant": "every history", "anchors": ["src/pytorch_kinematics/ik.py:IKSolution.update", "src/pytorch_kinematics/ik.py:IKSolution.__init__"]}
{"id": "C51", "title": "A converged IK solution reaches its target", "statement": "If solve reports converged[i,r], forward kinematics of solutions[i,r] is within pos_tolerance of target i in position and within rot_tolerance in rotation angle.", "quantifier": "every chain, targets, retries, iteration count, learning rate, line search and step kernel", "why_tests_cant": "every run of an iterative numeric solver", "anchors": ["src/pytorch_kinematics/ik.py:PseudoInverseIK.solve", "src/pytorch_kinematics/ik.py:PseudoInverseIK._enforce_limits", "src/pytorch_kinematics/ik.py:IKSolution.update", "src/pytorch_kinematics/ik.py:delta_pose"]}
{"id": "C52", "title": "IK solutions respect joint limits", "statement": "With enforce_joint_limits (default) and finite limits low<=high, every joint value in solutions lies within the chain's limits, converged or not.", "quantifier": "every run", "why_tests_cant": "every run of an iterative numeric solver", "anchors": ["src/pytorch_kinematics/ik.py:PseudoInverseIK._enforce_limits", "src/pytorch_kinematics/ik.py:PseudoInverseIK._wrap_revolute_joints"]}
{"id": "C53", "title": "IK works with partially limited chains", "statement": "On a chain where some joints have finite limits and a revolute joint has none, limit enforcement still returns numeric (non-NaN) solutions.", "quantifier": "every chain mixing limited and unlimited joints", "why_tests_cant": "existence of a failing input", "anchors": ["src/pytorch_kinematics/ik.py:PseudoInverseIK._wrap_revolute_joints"]}
{"id": "C54", "title": "The IK step is the damped least-squares minimiser", "statement": "For positive regularisation the linear system always has a unique solution and the step is the unique minimiser of |W(J dq - dx)|^2 + (lambda+mu)|dq|^2.", "quantifier": "every Jacobian (any DOF), error, weights and damping", "why_tests_cant": "real-valued matrices, singular ones included", "anchors": ["src/pytorch_kinematics/ik.py:_ik_step_kernel"]}
{"id": "C55", "title": "The SVD step equals the Cholesky step", "statement": "PseudoInverseIKWithSVD's kernel returns the same step as the default kernel for every chain.", "quantifier": "every Jacobian, every DOF", "why_tests_cant": "every DOF count and singular values", "anchors": ["src/pytorch_kinematics/ik.py:_ik_step_kernel_svd", "src/pytorch_kinematics/ik.py:PseudoInverseIKWithSVD"]}
{"id": "C56", "title": "Backtracking line search returns the first sufficient step", "statement": "For a still-remaining problem the returned rate is max_lr*decrease_factor^k for the least k at which the error drops by more than sufficient_decrease, or max_lr*decrease_factor^max_iterations if there is none.", "quantifier": "every error landscape, batch and parameters", "why_tests_cant": "every landscape and batch", "anchors": ["src/pytorch_kinematics/ik.py:BacktrackingLineSearch.do_line_search"]}
{"id": "C57", "title": "No-improvement early stopping matches its documentation", "statement": "'all' stops a problem when all retries stopped improving, 'any' when any did; they equal ratios 0.999 and 0.001.", "quantifier": "every history of errors, every number of retries", "why_tests_cant": "every history", "anchors": ["src/pytorch_kinematics/ik.py:PseudoInverseIK.solve", "src/pytorch_kinematics/ik.py:InverseKinematics.__init__"]}
{"id": "C58", "title": "The IK error is the pose difference", "statement": "delta_pose is zero exactly when the current rigid pose equals the target; its position part is the difference of the positions; its rotation part points along the axis of the rotation taking the current orientation to the target, with norm equal to that rotation's angle in [0, pi] for angles of 0 or at least 1e-6 rad, and at least the angle but at most a relative 1e-13 above it in between.", "quantifier": "every pair of rigid poses", "why_tests_cant": "real-valued poses, half turns", "anchors": ["src/pytorch_kinematics/ik.py:delta_pose", "src/pytorch_kinematics/ik.py:_ik_step_kernel"]}
{"id": "C59", "title": "Batching does not lose IK solutions", "statement": "If a retry converges when its problem is solved alone, it converges with the same solution when solved in a batch with other problems (before limit enforcement, without line search).", "quantifier": "every batch of problems", "why_tests_cant": "interaction between batch elements", "anchors": ["src/pytorch_kinematics/ik.py:PseudoInverseIK.solve"]}
{"id": "C60", "title": "IK terminates within its iteration budget", "statement": "solve performs at most max_iterations steps, sol.iterations counts them, and it stops early only when no problem remains.", "quantifier": "every run", "why_tests_cant": "every run", "anchors": ["src/pytorch_kinematics/ik.py:PseudoInverseIK.solve"]}
{"id": "C61", "title": "Wrapping revolute joints preserves the pose", "statement": "_wrap_revolute_joints (inside limit enforcement) shifts only revolute joints by integer multiples of 2*pi, so FK is unchanged, and brings the value within pi of the middle of the limits.", "quantifier": "every finite limits and configuration", "why_tests_cant": "real-valued configurations", "anchors": ["src/pytorch_kinematics/ik.py:PseudoInverseIK._wrap_revolute_joints"]}
{"id": "C62", "title": "Initial configurations are assigned per problem and retry", "statement": "Retry r of problem i starts from retry_configs[r] for a (R, dof) tensor; a batched (N, R, dof) tensor is accepted and gives retry_configs[i][r].", "quantifier": "every N, R, dof", "why_tests_cant": "every shape", "anchors": ["src/pytorch_kinematics/ik.py:InverseKinematics.__init__", "src/pytorch_kinematics/ik.py:PseudoInverseIK.solve"]}
{"id": "C63", "title": "Index caches follow the chain's device", "statement": "After chain.to(device=d), tensors returned by get_frame_indices live on d whatever was called before.", "quantifier": "every history of calls", "why_tests_cant": "history of calls", "anchors": ["src/pytorch_kinematics/chain.py:Chain.get_frame_indices", "src/pytorch_kinematics/chain.py:Chain.to"]}
{"id": "C64", "title": "print_tree shows every frame once", "statement": "The printed tree has one line per frame, in depth-first order, indented by depth.", "quantifier": "every tree", "why_tests_cant": "every tree", "anchors": ["src/pytorch_kinematics/frame.py:Frame.__str__", "src/pytorch_kinematics/chain.py:Chain.print_tree"]}
{"id": "C65", "title": "random_quaternions are unit with non-negative real part", "statement": "For every non-zero sample the returned quaternion is unit, has non-negative real part, and is a rescaling of the sample by a non-zero factor.", "quantifier": "every random draw", "why_tests_cant": "every draw", "anchors": ["src/pytorch_kinematics/transforms/rotation_conversions.py:random_quaternions", "src/pytorch_kinematics/transforms/rotation_conversions.py:_copysign"]}
{"id": "C66", "title": "Every documented form of joint input means the same", "statement": "jacobian(th) and SerialChain.forward_kinematics(th) give the same result for a flat list, a 1-D tensor, a one-row tensor and a dict holding the same joint values.", "quantifier": "every serial chain and joint values", "why_tests_cant": "every combination of input form and chain", "anchors": ["src/pytorch_kinematics/chain.py:SerialChain.jacobian", "src/pytorch_kinematics/chain.py:SerialChain.forward_kinematics", "src/pytorch_kinematics/chain.py:SerialChain.convert_serial_inputs_to_chain_inputs"]}
{"id": "C67", "title": "Builder methods apply in the documented order", "statement": "Transform3d().scale(s).translate(v) scales first and then translates, as documented: a point x goes to s*x+v.", "quantifier": "every chain of builder calls and point", "why_tests_cant": "real-valued transforms", "anchors": ["src/pytorch_kinematics/transforms/transform3d.py:Transform3d.translate", "src/pytorch_kinematics/transforms/transform3d.py:Transform3d.scale", "src/pytorch_kinematics/transforms/transform3d.py:Transform3d.rotate", "src/pytorch_kinematics/transforms/transform3d.py:Transform3d.rotate_axis_angle"]}
{"id": "C68", "title": "to() delivers the requested dtype and device", "statement": "t.to(device, dtype=d) keeps the values and returns an object whose matrix and attributes are on device with dtype d; the dtype and device attributes of every object describe its matrix.", "quantifier": "every transform, device and dtype", "why_tests_cant": "every construction history", "anchors": ["src/pytorch_kinematics/transforms/transform3d.py:Transform3d.to", "src/pytorch_kinematics/transforms/transform3d.py:Transform3d.clone", "src/pytorch_kinematics/transforms/transform3d.py:Translate.__init__", "src/pytorch_kinematics/transforms/transform3d.py:Scale.__init__", "src/pytorch_kinematics/transforms/transform3d.py:Rotate.__init__"]}
{"id": "C69", "title": "Shape operators transform as R S R^T", "statement": "transform_shape_operator sends S to R S R^T for a rigid transform with rotation R, for (P,3,3) and (N,P,3,3) inputs.", "quantifier": "every rigid transform and shape operator", "why_tests_cant": "real-valued matrices", "anchors": ["src/pytorch_kinematics/transforms/transform3d.py:Transform3d.transform_shape_operator"]}
{"id": "C70", "title": "RotateAxisAngle is the right-handed axis rotation", "statement": "RotateAxisAngle(angle, axis) rotates counter-clockwise about the named axis by the angle in degrees (or radians with degrees=False), one element per angle; axis letters in either case are accepted and anything else raises ValueError.", "quantifier": "every angle and axis string", "why_tests_cant": "real-valued angles", "anchors": ["src/pytorch_kinematics/transforms/transform3d.py:RotateAxisAngle.__init__", "src/pytorch_kinematics/transforms/transform3d.py:_handle_angle_input"]}
{"id": "C71", "title": "Translate and Scale broadcast their arguments", "statement": "Translate(x,y,z)/Scale(x,y,z) broadcast scalars and 1-D tensors to the longest and raise ValueError for other sizes; an (N,3) tensor gives one element per row and excludes y and z; Scale(x) is uniform.", "quantifier": "every combination of argument forms and sizes", "why_tests_cant": "every size", "anchors": ["src/pytorch_kinematics/transforms/transform3d.py:Translate.__init__", "src/pytorch_kinematics/transforms/transform3d.py:Scale.__init__", "src/pytorch_kinematics/transforms/transform3d.py:_handle_input", "src/pytorch_kinematics/transforms/transform3d.py:_handle_coord"]}
{"id": "C72", "title": "Reported IK errors belong to the returned solution", "statement": "For every retry with numeric joint values, converged or not, err_pos is the distance between the end effector at solutions[i,r] and the target, and err_rot is the rotation angle between them (up to a relative 1e-13 below 1e-6 rad).", "quantifier": "every run", "why_tests_cant": "every run of an iterative numeric solver", "anchors": ["src/pytorch_kinematics/ik.py:IKSolution.update", "src/pytorch_kinematics/ik.py:PseudoInverseIK.solve", "src/pytorch_kinematics/ik.py:PseudoInverseIK._enforce_limits"]}
{"id": "C73", "title": "Answers do not depend on earlier calls", "statement": "get_frame_indices, get_joint_parameter_names and forward_kinematics (tensor or dict input) of a chain give the values a freshly built chain gives, whatever was called before on this or other chains and whatever the caller did with the objects it was given.", "quantifier": "every program over any number of chains", "why_tests_cant": "history of calls over shared caches", "anchors": ["src/pytorch_kinematics/chain.py:Chain.get_frame_indices", "src/pytorch_kinematics/chain.py:Chain.get_joint_parameter_names", "src/pytorch_kinematics/chain.py:Chain.get_all_frame_indices", "src/pytorch_kinematics/chain.py:Chain.ensure_tensor", "src/pytorch_kinematics/chain.py:Chain.forward_kinematics"]}
{"id": "C74", "title": "URDF velocity and effort limits are reported", "statement": "For a chain loaded from URDF, get_joint_velocity_limits and get_joint_effort_limits give, at each moving joint's position, the symmetric range declared by its limit element, and the infinite range for a joint without one.", "quantifier": "every tree-shaped robot", "why_tests_cant": "every robot", "anchors": ["src/pytorch_kinematics/urdf.py:build_chain_from_urdf", "src/pytorch_kinematics/urdf.py:_build_chain_recurse", "src/pytorch_kinematics/chain.py:Chain.get_joint_velocity_limits", "src/pytorch_kinematics/chain.py:Chain.get_joint_effort_limits"]}
{"id": "C75", "title": "Mimic joints follow the joint they mimic", "statement": "In a chain loaded from URDF, a joint with a mimic element moves with multiplier*value+offset of the joint it names.", "quantifier": "every robot and joint values", "why_tests_cant": "every robot with mimic joints", "anchors": ["src/pytorch_kinematics/urdf.py:_build_chain_recurse", "src/pytorch_kinematics/urdf_parser_py/urdf.py:Joint"]}
{"id": "C76", "title": "Formatting of a description does not matter", "statement": "Inserting or removing comments, reordering attributes, and moving elements of different tags past each other changes neither whether build_chain_from_urdf / build_chain_from_sdf succeeds nor the chain.", "quantifier": "every document", "why_tests_cant": "every document, valid or not", "anchors": ["src/pytorch_kinematics/urdf.py:build_chain_from_urdf", "src/pytorch_kinematics/sdf.py:build_chain_from_sdf", "src/pytorch_kinematics/urdf_parser_py/xml_reflection/core.py:xml_children", "src/pytorch_kinematics/urdf_parser_py/xml_reflection/core.py:Object.read_xml"]}
{"id": "C77", "title": "Serial chains from descriptions are the path between the links", "statement": "build_serial_chain_from_urdf/sdf/mjcf(data, end, root) gives the frames from root (the tree's root by default) down to end with the declared joints on the way; ValueError iff root is not a link, KeyError iff end is not below root.", "quantifier": "every tree-shaped description and pair of names", "why_tests_cant": "every description", "anchors": ["src/pytorch_kinematics/urdf.py:build_serial_chain_from_urdf", "src/pytorch_kinematics/sdf.py:build_serial_chain_from_sdf", "src/pytorch_kinematics/mjcf.py:build_serial_chain_from_mjcf", "src/pytorch_kinematics/chain.py:SerialChain.__init__"]}
{"id": "C78", "title": "SDF joint poses place the joint", "statement": "In a chain loaded from SDF the joint moves the child about (or along) its axis at the frame given by the joint's pose element, relative to the child link.", "quantifier": "every model and joint values", "why_tests_cant": "every model", "anchors": ["src/pytorch_kinematics/sdf.py:_build_chain_recurse", "src/pytorch_kinematics/urdf_parser_py/sdf.py:Joint"]}
{"id": "C79", "title": "Every valid SDF tree loads", "statement": "build_chain_from_sdf loads every valid model whose links form a tree and whose joints are revolute, prismatic or fixed.", "quantifier": "every valid model", "why_tests_cant": "every model", "anchors": ["src/pytorch_kinematics/sdf.py:build_chain_from_sdf", "src/pytorch_kinematics/sdf.py:_build_chain_recurse", "src/pytorch_kinematics/urdf_parser_py/sdf.py:Link", "src/pytorch_kinematics/urdf_parser_py/sdf.py:Joint", "src/pytorch_kinematics/urdf_parser_py/sdf.py:Axis"]}
{"id": "C80", "title": "SDF joint limits are reported", "statement": "For a chain loaded from SDF, low and high give, at each moving joint's position, the bounds of its limit element, and -inf/inf for bounds that are not given.", "quantifier": "every tree-shaped model", "why_tests_cant": "every model", "anchors": ["src/pytorch_kinematics/sdf.py:_build_chain_recurse", "src/pytorch_kinematics/urdf_parser_py/sdf.py:Limit"]}
{"id": "C81", "title": "MJCF joint limits are reported", "statement": "For a chain loaded from MJCF, low and high give, at each joint's position, the range of a limited joint and -inf/inf for an unlimited one.", "quantifier": "every compiled model", "why_tests_cant": "every model", "anchors": ["src/pytorch_kinematics/mjcf.py:_build_chain_recurse"]}
{"id": "C82", "title": "Every MJCF model loads", "statement": "build_chain_from_mjcf loads every compiled model.", "quantifier": "every compiled model", "why_tests_cant": "every model", "anchors": ["src/pytorch_kinematics/mjcf.py:_build_chain_recurse", "src/pytorch_kinematics/mjcf.py:build_chain_from_mjcf"]}
{"id": "C83", "title": "The body argument selects a subtree", "statement": "build_chain_from_mjcf(data, body) with a name or an index gives the body and everything below it, and for equal joint values all poses relative to the body are those of the whole model.", "quantifier": "every compiled model, body and joint values", "why_tests_cant": "every model", "anchors": ["src/pytorch_kinematics/mjcf.py:build_chain_from_mjcf", "src/pytorch_kinematics/mjcf.py:_build_chain_recurse"]}
{"id": "C84", "title": "Every MJCF body and site gets a pose", "statement": "forward_kinematics of a chain loaded from MJCF returns a pose for every body and every site, named or not.", "quantifier": "every compiled model and joint values", "why_tests_cant": "every model", "anchors": ["src/pytorch_kinematics/mjcf.py:_build_chain_recurse", "src/pytorch_kinematics/mjcf.py:build_chain_from_mjcf", "src/pytorch_kinematics/chain.py:Chain.forward_kinematics"]}
{"id": "C85", "title": "A frame's own transform agrees with forward kinematics", "statement": "The FK pose of every frame is the pose of its parent times the offset of its link times frame.get_transform(theta) at the value of its joint; the root's pose is the same without the parent.", "quantifier": "every kinematic tree and joint values", "why_tests_cant": "every tree", "anchors": ["src/pytorch_kinematics/frame.py:Frame.get_transform", "src/pytorch_kinematics/chain.py:Chain.forward_kinematics"]}
{"id": "C86", "title": "Joint.clamp and Chain.clamp agree", "statement": "Chain.clamp(th) applies Joint.clamp of the i-th moving joint to column i, for joints with and without limits and for values that are not finite.", "quantifier": "every kinematic tree and joint values", "why_tests_cant": "every tree", "anchors": ["src/pytorch_kinematics/frame.py:Joint.clamp", "src/pytorch_kinematics/chain.py:Chain.clamp"]}
{"id": "C87", "title": "A start that already solves the problem is returned", "statement": "If a starting configuration is already within the tolerances of its target, solve returns it unchanged as converged when no joint limits are enforced; when limits are enforced and the start is exact and within them, the result is converged, within limits, has the exact target pose, and differs from the start by full turns of revolute joints only (not at all if the ranges are below a full turn).", "quantifier": "every chain, target, start and solver setting (iterations, learning rate, line search, stopping rule)", "why_tests_cant": "every chain, target and setting", "anchors": ["src/pytorch_kinematics/ik.py:PseudoInverseIK.solve", "src/pytorch_kinematics/ik.py:IKSolution.update"]}
{"id": "C88", "title": "A solver can be reused", "statement": "A call of solve on an inverse-kinematics object gives what a new object with the same configuration gives, whatever problems (any number of targets, solved or not, stopped early or not) the object was used for before.", "quantifier": "every sequence of earlier calls", "why_tests_cant": "every sequence of calls", "anchors": ["src/pytorch_kinematics/ik.py:InverseKinematics.clear", "src/pytorch_kinematics/ik.py:PseudoInverseIK.solve"]}
{"id": "C89", "title": "Sampled initial configurations", "statement": "With uniform sampling and joint limits, num_retries starts are drawn, each within the limits of each joint; gaussian_around_config displaces the given configuration by std times the draws; missing limits, an unknown method, and neither starts nor a number of retries raise ValueError; retry r of every problem starts at the r-th sample.", "quantifier": "all draws, limits, configurations and numbers of retries and problems", "why_tests_cant": "all draws", "anchors": ["src/pytorch_kinematics/ik.py:InverseKinematics.__init__", "src/pytorch_kinematics/ik.py:InverseKinematics.sample_configs", "src/pytorch_kinematics/ik.py:gaussian_around_config"]}
{"id": "C90", "title": "The Jacobian maps joint velocities to end-effector velocity", "statement": "When all joints move at once along any differentiable curve of joint values with velocities qd, the end effector moves with linear velocity (J qd)[:3] and angular velocity (J qd)[3:], J the Jacobian at the current values.", "quantifier": "every serial chain, batch, joint curve and velocities", "why_tests_cant": "every chain and curve", "anchors": ["src/pytorch_kinematics/chain.py:SerialChain.jacobian", "src/pytorch_kinematics/chain.py:SerialChain.forward_kinematics"]}
{"id": "C91", "title": "The solver's step is a descent direction", "statement": "The step dq that the inverse-kinematics solver computes at joint values q is a descent direction of the weighted squared pose error position_weight^2 |p*-p|^2 + orientation_weight^2 angle^2: the derivative of the error along dq is at most -2*regularization*|dq|^2, every sufficiently short step along dq makes the error smaller, and dq is zero exactly when q is a critical point of the error. (Targets not half a turn away, and rotation errors that are zero or at least 1e-6 rad.)", "quantifier": "every serial chain, joint values, target, weights, damping and regularization > 0", "why_tests_cant": "real-valued configurations and infinitely short steps; a run of the solver can only show that some steps of some length helped", "anchors": ["src/pytorch_kinematics/ik.py:_ik_step_kernel", "src/pytorch_kinematics/ik.py:PseudoInverseIK.solve", "src/pytorch_kinematics/chain.py:SerialChain.jacobian_tensor"]}
{"id": "C92", "title": "Loaded links show what the description declares", "statement": "After loading a URDF, SDF or MJCF description, the visuals of each frame's link (frame.link.visuals) are exactly the visuals (geoms) declared for that link, in order: one Visual per declared visual, with the declared pose relative to the link as offset, and the declared shape and dimensions as geom_type (one of Visual.TYPES) and geom_param; a link that declares none has none.", "quantifier": "every document of a tree-shaped description with any number of links, visuals per link, shapes, dimensions and poses", "why_tests_cant": "documents are unbounded: number of visuals per link, mixture of shapes, angles of poses; the test robots have at most one visual per link and no test looks at visuals", "anchors": ["src/pytorch_kinematics/urdf.py:_convert_visual", "src/pytorch_kinematics/urdf.py:_build_chain_recurse", "src/pytorch_kinematics/urdf.py:build_chain_from_urdf", "src/pytorch_kinematics/sdf.py:_convert_visuals", "src/pytorch_kinematics/sdf.py:build_chain_from_sdf", "src/pytorch_kinematics/mjcf.py:body_to_geoms", "src/pytorch_kinematics/mjcf.py:build_chain_from_mjcf", "src/pytorch_kinematics/frame.py:Visual", "src/pytorch_kinematics/frame.py:Link"]}
{"id": "C93", "title": "A chain can be moved to another dtype and device", "statement": "After chain.to(dtype, device), called any number of times with either argument left out, every tensor of the chain and of its frames has the dtype and device last asked for; forward_kinematics, clamp, jacobian and the gradient then work for lists, arrays, dicts and for tensors of that dtype on that device and give results of that dtype on that device; a tensor of joint values of any other dtype or device raises RuntimeError.", "quantifier": "every tree of frames (with or without offsets, any joint types), every sequence of to calls, every dtype and device of the joint values", "why_tests_cant": "the tests run on one device and need a GPU for more; sequences of moves and combinations of joint types and absent offsets are unbounded", "anchors": ["src/pytorch_kinematics/chain.py:Chain.to", "src/pytorch_kinematics/chain.py:SerialChain.to", "src/pytorch_kinematics/chain.py:_fk_impl", "src/pytorch_kinematics/chain.py:SerialChain.jacobian", "src/pytorch_kinematics/frame.py:Frame.to", "src/pytorch_kinematics/frame.py:Joint.to", "src/pytorch_kinematics/frame.py:Link.to"]}
{"id": "C94", "title": "Tool locations may be given at the chain's dtype and device", "statement": "jacobian(th, locations=p) accepts a tensor p of the chain's dtype on the chain's device, as well as lists, arrays and Transform3d objects, and returns a Jacobian of that dtype on that device.", "quantifier": "every serial chain, dtype and device, every form of locations", "why_tests_cant": "the tests only run on the CPU unless a GPU is present; forms of locations times dtypes times devices are not enumerated", "anchors": ["src/pytorch_kinematics/chain.py:SerialChain.jacobian", "src/pytorch_kinematics/transforms/transform3d.py:Transform3d.__init__"]}
{"id": "C95", "title": "Chains can be constructed at a dtype and device", "statement": "Chain(root, dtype=d, device=v) gives a chain whose tensors have dtype d on device v, whatever the dtype of the frames' offsets; SerialChain(chain, end) of a chain that was moved has the dtype and device of that chain.", "quantifier": "every tree of frames, dtype and device", "why_tests_cant": "the tests construct chains at the defaults and move them afterwards", "anchors": ["src/pytorch_kinematics/chain.py:Chain.__init__", "src/pytorch_kinematics/chain.py:SerialChain.__init__"]}
{"id": "C96", "title": "Inverse kinematics works at the chain's dtype and device", "statement": "On a serial chain moved to a dtype and device, a solver built from it with given, sampled or gaussian initial configurations solves for target poses on that device, of either dtype, and returns solutions and errors of the chain's dtype on the chain's device.", "quantifier": "every serial chain, dtype, device, sampling method, solver setting (kernel, damping, line search, clamping, limit enforcement, stopping rule) and number of iterations", "why_tests_cant": "the tests fix float32, one sampling method and a few settings", "anchors": ["src/pytorch_kinematics/ik.py:InverseKinematics.__init__", "src/pytorch_kinematics/ik.py:InverseKinematics.sample_configs", "src/pytorch_kinematics/ik.py:PseudoInverseIK.solve", "src/pytorch_kinematics/ik.py:BacktrackingLineSearch.do_line_search"]}
{"id": "C97", "title": "Transforms returned by the API do not share memory with their operands", "statement": "A Transform3d built by Transform3d(...), Translate, Scale, Rotate, RotateAxisAngle, clone, inverse, stack, compose, translate, scale, rotate or to(device, copy=True) shows its own value from then on: no later writing into a tensor or into another transform changes it, and no change made through it changes any other transform or tensor.  get_matrix() and matrix= give direct access to the stored matrix, indexing with an integer or a slice gives a view, indexing with a list a copy.", "quantifier": "every program of constructions, compositions, indexings, moves and in-place writes before and after the call", "why_tests_cant": "aliasing shows only through later writes; the tests compare values right after each call", "anchors": ["src/pytorch_kinematics/transforms/transform3d.py:Transform3d.__init__", "src/pytorch_kinematics/transforms/transform3d.py:Transform3d.clone", "src/pytorch_kinematics/transforms/transform3d.py:Transform3d.compose", "src/pytorch_kinematics/transforms/transform3d.py:Transform3d.inverse", "src/pytorch_kinematics/transforms/transform3d.py:Transform3d.stack", "src/pytorch_kinematics/transforms/transform3d.py:Transform3d.to", "src/pytorch_kinematics/transforms/transform3d.py:Transform3d.get_matrix", "src/pytorch_kinematics/transforms/transform3d.py:Transform3d.__getitem__"]}
{"id": "C98", "title": "A SerialChain is independent of the chain it is built from", "statement": "SerialChain(chain, end, root) changes nothing of chain, and afterwards the two share no frame, link or joint: no sequence of changes made to the frames, links and joints of the one (renaming, replacing, attaching or removing children, editing offsets, axes or limits) changes the other.", "quantifier": "every program that builds and edits frames before and after the construction, every end and root frame", "why_tests_cant": "the tests never change a chain after extracting a serial chain from it; a shallow copy would pass them", "anchors": ["src/pytorch_kinematics/chain.py:SerialChain.__init__", "src/pytorch_kinematics/chain.py:Chain.find_frame"]}
{"id": "C99", "title": "Random rotations are uniformly distributed", "statement": "random_rotations(n) returns n independent rotations, each distributed uniformly over all rotations: the distribution is unchanged when the random rotation is followed or preceded by any fixed rotation, which determines it. (random_quaternions and random_rotation are the same rotations in other forms.)", "quantifier": "every number of rotations, every fixed rotation, every measurable set of outcomes", "why_tests_cant": "a distribution over a continuum: samples can only fail to reject a biased sampler; sign conventions and normalisation could bias regions that no test looks at", "anchors": ["src/pytorch_kinematics/transforms/rotation_conversions.py:random_rotations", "src/pytorch_kinematics/transforms/rotation_conversions.py:random_quaternions", "src/pytorch_kinematics/transforms/rotation_conversions.py:random_rotation", "src/pytorch_kinematics/transforms/rotation_conversions.py:_copysign", "src/pytorch_kinematics/transforms/rotation_conversions.py:quaternion_to_matrix"]}
{"id": "C100", "title": "Perturbations have the documented distribution", "statement": "sample_perturbations of rigid transforms returns independent perturbations; in each the displacement and the rotation are independent; displacement coordinates are independent normals with standard deviation translation_sigma; the rotation is by a normal angle with standard deviation radian_sigma about an independent direction that is uniform on the unit sphere, or about the given unit axis; perpendicular displacements are normal in the plane perpendicular to the axis.", "quantifier": "every number of perturbations, rigid transforms, sigmas, axis and measurable set of outcomes", "why_tests_cant": "a joint distribution over a continuum: independence and uniformity cannot be established by samples", "anchors": ["src/pytorch_kinematics/transforms/perturbation.py:sample_perturbations"]}
{"id": "C101", "title": "Initial configurations have the documented distribution", "statement": "The num_retries initial configurations a solver samples have independent entries: uniform on [low, high] of each joint with the uniform method, standard normal with the gaussian method, and normal around the given configuration with the given standard deviation with gaussian_around_config.", "quantifier": "every number of retries and joints, limits, configuration and standard deviation", "why_tests_cant": "a joint distribution over a continuum; C89 (ranges) is the part single samples can show", "anchors": ["src/pytorch_kinematics/ik.py:InverseKinematics.sample_configs", "src/pytorch_kinematics/ik.py:gaussian_around_config", "src/pytorch_kinematics/ik.py:InverseKinematics.__init__"]}
{"id": "C102", "title": "Forward kinematics is accurate in floating point", "statement": "forward_kinematics computed in floating-point arithmetic reports the same frames as exact arithmetic, with poses that are close to the exact ones: the error of a frame's rotation (Frobenius norm), and the error of its position relative to the total length of the translations along its path, grow at most linearly with the number n of frames on the path; in p-bit arithmetic with correctly rounded operations both are at most 182 n / 2^p (float32: p = 24, float64: p = 53). Imprecisely stored offsets and axes add their own error per frame.", "quantifier": "every kinematic tree, joint values (of any size), batch, depth, and arithmetic with bounded relative errors", "why_tests_cant": "error bounds are about all inputs and all orders of summation; tests compare a few poses with a tolerance", "anchors": ["src/pytorch_kinematics/chain.py:_fk_impl", "src/pytorch_kinematics/chain.py:Chain.forward_kinematics", "src/pytorch_kinematics/chain.py:Chain.__init__", "src/pytorch_kinematics/transforms/rotation_conversions.py:axis_and_angle_to_matrix_33", "src/pytorch_kinematics/transforms/rotation_conversions.py:axis_and_d_to_pris_matrix"]}
{"id": "C103", "title": "Invalid descriptions are rejected, valid ones accepted", "statement": "build_chain_from_urdf / build_chain_from_sdf (and the serial versions) raise an exception for every document that violates the schema in an element the parser reads: a missing required attribute or element (joint name, type, parent, child, axis, effort and velocity of a limit, shape and its dimensions, mass, ...), a text that is not a number, a vector of the wrong length, an unknown joint or shape type; no chain is built with made-up values. Conversely every document without such a violation (for SDF: with an inertial element per link, an axis per joint and both bounds or none) whose joints connect its links as a tree is accepted, and the frames of the chain have the names, the parents and the joints the document declares.", "quantifier": "every document (any nesting, elements, texts, comments)", "why_tests_cant": "documents are unbounded; the tests load a few correct files and no incorrect one", "anchors": ["src/pytorch_kinematics/urdf.py:build_chain_from_urdf", "src/pytorch_kinematics/urdf.py:build_serial_chain_from_urdf", "src/pytorch_kinematics/sdf.py:build_chain_from_sdf", "src/pytorch_kinematics/sdf.py:build_serial_chain_from_sdf", "src/pytorch_kinematics/urdf_parser_py/xml_reflection/core.py:Reflection.set_from_xml", "src/pytorch_kinematics/urdf_parser_py/xml_reflection/core.py:Param", "src/pytorch_kinematics/urdf_parser_py/xml_reflection/core.py:Element", "src/pytorch_kinematics/urdf_parser_py/urdf.py:Joint", "src/pytorch_kinematics/urdf_parser_py/urdf.py:Link", "src/pytorch_kinematics/urdf_parser_py/urdf.py:GeometricType", "src/pytorch_kinematics/urdf_parser_py/sdf.py:Joint", "src/pytorch_kinematics/urdf_parser_py/sdf.py:Link"]}
{"id": "C104", "title": "Omitted parts of a description mean their defaults", "statement": "Writing out any omitted part of a URDF or SDF description with its documented default - origin (or pose) zero, xyz or rpy of an origin zero, lower and upper bound of a limit, damping and friction, gains and soft limits, mimic offset zero, mimic multiplier one - anywhere in the document, changes neither whether build_chain_from_urdf / build_chain_from_sdf (and the serial versions) succeed nor the chain.", "quantifier": "every document, valid or not, and every choice of omitted parts", "why_tests_cant": "every document and every subset of its optional parts", "anchors": ["src/pytorch_kinematics/urdf.py:build_chain_from_urdf", "src/pytorch_kinematics/sdf.py:build_chain_from_sdf", "src/pytorch_kinematics/urdf_parser_py/xml_reflection/core.py:Reflection.set_from_xml", "src/pytorch_kinematics/urdf_parser_py/urdf.py:Pose", "src/pytorch_kinematics/urdf_parser_py/urdf.py:JointLimit", "src/pytorch_kinematics/urdf_parser_py/urdf.py:JointMimic", "src/pytorch_kinematics/urdf_parser_py/sdf.py:Link", "src/pytorch_kinematics/urdf_parser_py/sdf.py:Joint"]}
{"id": "C105", "title": "Descriptions that are not a tree are rejected", "statement": "build_chain_from_urdf / build_chain_from_sdf succeed only if the joints connect the links as a tree (every link reached from one root, by one joint each, no cycle, parents and children declared), and the chain then has exactly one frame for each link; otherwise an exception is raised.", "quantifier": "every document that can be read", "why_tests_cant": "every graph of links and joints: several components, several parents, cycles anywhere, undeclared links; the test robots are all trees", "anchors": ["src/pytorch_kinematics/urdf.py:build_chain_from_urdf", "src/pytorch_kinematics/urdf.py:_build_chain_recurse", "src/pytorch_kinematics/sdf.py:build_chain_from_sdf", "src/pytorch_kinematics/sdf.py:_build_chain_recurse"]}
{"id": "C106", "title": "Joints left out of a dictionary are at zero", "statement": "README: joint values can be passed in a dictionary, unspecified joints get th = 0: forward_kinematics of a dictionary that names only some of the moving joints is forward_kinematics with zeros for the others.", "quantifier": "every tree, every subset of its joints and values", "why_tests_cant": "every subset of joints of every chain", "anchors": ["src/pytorch_kinematics/chain.py:Chain.ensure_tensor", "src/pytorch_kinematics/chain.py:Chain.forward_kinematics"]}
{"id": "C107", "title": "Inverse kinematics converges near a solution", "statement": "If some joint values reach the target and the Jacobian has full rank there (its rows or its columns are independent), then PseudoInverseIK.solve reports convergence, at joint values close to them, for every retry that starts close enough to them, for arbitrarily small tolerances given enough iterations: how close the start must be does not depend on the tolerances. With regularization > 0, nonzero weights and learning rates in (0, 2], with or without line search and clamping, and with the default early stopping; with limits enforced, for enough refinement iterations, if the joint values are strictly inside the limits.", "quantifier": "every serial chain, solution with full-rank Jacobian, start near it, tolerances, weights, damping, learning rate, line search, number of problems and retries", "why_tests_cant": "convergence for all starts in a neighbourhood and all tolerances is a limit statement; runs only show single starts and tolerances", "anchors": ["src/pytorch_kinematics/ik.py:PseudoInverseIK.solve", "src/pytorch_kinematics/ik.py:_ik_step_kernel", "src/pytorch_kinematics/ik.py:PseudoInverseIK._enforce_limits", "src/pytorch_kinematics/ik.py:BacktrackingLineSearch.do_line_search"]}
{"id": "C108", "title": "Gradients of any loss, first and second order", "statement": "For every differentiable loss of the poses returned by forward_kinematics_tensor, or of the Jacobian and end-effector pose returned by jacobian_tensor, backward fills th.grad with the derivative of the loss with respect to every joint value of every row. The loss is as smooth in the joint values as it is in the poses. Second derivatives obtained by differentiating the gradient again (create_graph=True) are the second derivatives of the loss.", "quantifier": "every tree of rigid frames with unit axes, batch of joint values, differentiable loss, pair of joint columns and rows", "why_tests_cant": "gradient checks compare single configurations of single losses against finite differences; second derivatives are not tested at all", "anchors": ["src/pytorch_kinematics/chain.py:_FKAnalyticalBackward.backward", "src/pytorch_kinematics/chain.py:_FKAnalyticalBackward.forward", "src/pytorch_kinematics/chain.py:Chain.forward_kinematics_tensor", "src/pytorch_kinematics/chain.py:SerialChain.jacobian_tensor"]}
{"id": "C109", "title": "A target out of reach is never reported as converged", "statement": "The end-effector of a serial chain is at most as far from its root as the sum of its link lengths and extensions, and at least as far as one link is longer than everything else together. So inverse kinematics never reports a target beyond that (by more than the position tolerance) as converged, in converged or converged_any, whatever the retries and settings; with prismatic joints, when limits are enforced, the limits bound the extension.", "quantifier": "every tree of rigid frames with unit axes, serial chain, target, retry, start configuration, solver settings", "why_tests_cant": "an iterative solver can be run on finitely many unreachable targets only; a false success needs one unlucky start", "anchors": ["src/pytorch_kinematics/ik.py:PseudoInverseIK.solve", "src/pytorch_kinematics/ik.py:PseudoInverseIK._enforce_limits", "src/pytorch_kinematics/ik.py:IKSolution.update", "src/pytorch_kinematics/ik.py:delta_pose", "src/pytorch_kinematics/chain.py:SerialChain.forward_kinematics"]}
{"id": "C110", "title": "Poses depend on the joint values in a Lipschitz way", "statement": "Between any two sets of joint values the end of a serial chain, and every frame of a chain, turns by at most the sum of the absolute changes of the revolute joints on its path, and moves by at most the changes of the prismatic joints plus each revolute change times the length of the arm beyond that joint.", "quantifier": "every tree of rigid frames with unit axes, pair of joint tensors, pair of rows, frame", "why_tests_cant": "a bound on all pairs of configurations; tests compare single configurations", "anchors": ["src/pytorch_kinematics/chain.py:Chain.forward_kinematics", "src/pytorch_kinematics/chain.py:Chain.forward_kinematics_tensor", "src/pytorch_kinematics/chain.py:SerialChain.forward_kinematics"]}
{"id": "C111", "title": "A robot that is written and loaded again is the same robot", "statement": "Every robot object that URDF.from_xml_string returns can be written with to_xml. What is written, however it is formatted, loads to the same chain and serial chains as the original document; it reads as an equal robot object, and writing does not change the robot, so that writing twice gives the same document.", "quantifier": "every URDF document that is accepted, number syntax whose printing reads back, formatting of the output, recursion depth, end and root link", "why_tests_cant": "a round trip is tested on a few files; whether some optional element, default or value type is written wrongly concerns every document", "anchors": ["src/pytorch_kinematics/urdf_parser_py/urdf.py:Robot", "src/pytorch_kinematics/urdf_parser_py/urdf.py:Link", "src/pytorch_kinematics/urdf_parser_py/urdf.py:Joint", "src/pytorch_kinematics/urdf_parser_py/urdf.py:Visual", "src/pytorch_kinematics/urdf_parser_py/urdf.py:Material", "src/pytorch_kinematics/urdf_parser_py/urdf.py:Transmission", "src/pytorch_kinematics/urdf_parser_py/xml_reflection/core.py:Reflection.set_from_xml", "src/pytorch_kinematics/urdf_parser_py/xml_reflection/core.py:Reflection.add_to_xml", "src/pytorch_kinematics/urdf_parser_py/xml_reflection/core.py:RawType.write_xml", "src/pytorch_kinematics/urdf_parser_py/xml_reflection/core.py:Object.to_xml", "src/pytorch_kinematics/urdf.py:build_chain_from_urdf", "src/pytorch_kinematics/urdf.py:build_serial_chain_from_urdf"]}
{"id": "C112", "title": "An SDF description that is written and loaded again is the same description", "statement": "Every object that SDF.from_xml_string returns can be written with to_xml, unchanged by it; what is written, however it is formatted, reads as an equal object and loads to the same chain and serial chains as the original document.", "quantifier": "every SDF document that is accepted, number syntax whose printing reads back, formatting of the output, recursion depth, end and root link", "why_tests_cant": "a round trip is tested on a few files; it concerns every combination of optional elements and flags", "anchors": ["src/pytorch_kinematics/urdf_parser_py/sdf.py:SDF", "src/pytorch_kinematics/urdf_parser_py/sdf.py:Model", "src/pytorch_kinematics/urdf_parser_py/sdf.py:Link", "src/pytorch_kinematics/urdf_parser_py/sdf.py:Joint", "src/pytorch_kinematics/urdf_parser_py/sdf.py:Axis", "src/pytorch_kinematics/urdf_parser_py/sdf.py:Visual", "src/pytorch_kinematics/urdf_parser_py/xml_reflection/core.py:Reflection.set_from_xml", "src/pytorch_kinematics/urdf_parser_py/xml_reflection/core.py:Reflection.add_to_xml", "src/pytorch_kinematics/urdf_parser_py/xml_reflection/core.py:Object.to_xml", "src/pytorch_kinematics/urdf_parser_py/xml_reflection/core.py:BasicType.from_string", "src/pytorch_kinematics/sdf.py:build_chain_from_sdf", "src/pytorch_kinematics/sdf.py:build_serial_chain_from_sdf"]}
{"id": "C113", "title": "A robot object answers questions about its tree correctly and as the chains do", "statement": "Robot.get_root returns the only link that is no joint's child, and raises exactly if there is none or more than one. On a tree, Robot.get_chain(a, b) lists the links and joints on the path from a to b in order, restricted to what the flags ask for, and raises KeyError if b is not below a. These answers agree with the chains built from the same document: the root's name, the frames of the serial chain and its joint parameter names.", "quantifier": "every robot object (get_root); every robot whose joints form a tree, every pair of links, every combination of flags", "why_tests_cant": "tests ask one robot; the root is unique only by a global argument over all joints, and the agreement relates two independent traversals of every tree", "anchors": ["src/pytorch_kinematics/urdf_parser_py/urdf.py:Robot.get_root", "src/pytorch_kinematics/urdf_parser_py/urdf.py:Robot.get_chain", "src/pytorch_kinematics/urdf_parser_py/urdf.py:Robot.add_aggregate", "src/pytorch_kinematics/urdf.py:build_chain_from_urdf", "src/pytorch_kinematics/urdf.py:build_serial_chain_from_urdf"]}
{"id": "C114", "title": "Jacobians are accurate in floating-point arithmetic", "statement": "In any arithmetic whose operations have bounded relative error, SerialChain.jacobian succeeds and every column is the velocity (linear and angular) of the end of the exactly described robot when that joint moves, up to a relative error that depends only on the arithmetic, on how precisely the robot is stored, and on the number of frames n: relative to the length of the arm in the linear part of revolute columns, absolute elsewhere. The same holds with a tool, which may be stored imprecisely as well. In binary arithmetic with q digits (24 for float32, 53 for float64) and exactly stored data, the difference from the exact Jacobian is at most 182(3n+1)/2^q times the length of the arm in linear parts and 182(n+1)/2^q in angular parts.", "quantifier": "every arithmetic (any order of summation, fused multiply-add or not), every well-formed tree and serial chain, every batch of joint values, every ideal robot that the stored numbers approximate, every tool", "why_tests_cant": "tests compare with finite differences or another library up to a tolerance for a few arms and cannot tell how the error grows with the number of frames, nor bound it over all configurations, where the cancellation in the difference of positions could be arbitrarily bad", "anchors": ["src/pytorch_kinematics/chain.py:SerialChain.jacobian", "src/pytorch_kinematics/chain.py:SerialChain.jacobian_tensor", "src/pytorch_kinematics/chain.py:SerialChain.__init__", "src/pytorch_kinematics/chain.py:Chain._fk_impl"]}
{"id": "C115", "title": "Rotation conversions are accurate in floating-point arithmetic, for approximate rotations too", "statement": "In any arithmetic with unit roundoff u <= 1/100, matrix_to_quaternion of a matrix whose entries are within e <= 1/50 of a rotation is, up to its sign, within 7e + 50u (per component) of the unit quaternion of that rotation; the bound is the same for all rotations, half turns included, where the code switches between four formulas. quaternion_to_matrix of any non-zero quaternion, of whatever length, is its rotation up to 18u per entry. Converting an approximate rotation to a quaternion and back gives the rotation up to 63e + 470u.", "quantifier": "every arithmetic, every rotation, every matrix near it, every non-zero quaternion", "why_tests_cant": "tests sample rotations; the accuracy is at stake where the selected formula changes and where its denominator is smallest, on sets that samples miss, and perturbations of the input have nine dimensions", "anchors": ["src/pytorch_kinematics/transforms/rotation_conversions.py:matrix_to_quaternion", "src/pytorch_kinematics/transforms/rotation_conversions.py:quaternion_to_matrix"]}
{"id": "C116", "title": "Convergence reported by the solver is genuine in floating-point arithmetic", "statement": "In any arithmetic with bounded relative errors, whatever steps the solver takes: for every retry with numeric joint values, err_pos and err_rot are the distance and the angle between the target and the exact pose of the exactly described robot at the returned joint values, up to explicit bounds proportional to the roundoff, to the precision with which robot and target are stored and to the number of frames; a retry reported as converged has numeric joint values, and the exact pose there is within the tolerances plus these bounds. With finite limits and enforcement, every returned joint value is NaN or within the limits, in every arithmetic. In binary arithmetic with q digits and exactly stored robot and targets, a converged retry of a chain of n frames reaches the target up to (1 + 8/2^q) pos_tolerance + 186n/2^q times the length of the arm, and rot_tolerance + (54600n + 4660)/2^q + 2e-17 rad.", "quantifier": "every arithmetic (also for the operations of the solver itself), every proposed step (any linear solver, NaN included), every well-formed serial chain, all targets, starting values, parameters, iteration counts", "why_tests_cant": "tests recompute the pose with the same arithmetic, so an error common to both is invisible; they run a few problems and cannot bound how rounding and the quaternion difference distort the error near zero and near half turns", "anchors": ["src/pytorch_kinematics/ik.py:PseudoInverseIK.solve", "src/pytorch_kinematics/ik.py:IKSolution.update", "src/pytorch_kinematics/ik.py:delta_pose"]}
{"id": "C117", "title": "Backpropagation through the rotation conversions delivers the derivative", "statement": "loss.backward() through quaternion_to_matrix, axis_and_angle_to_matrix_33, matrix_to_quaternion, matrix_to_axis_angle, axis_angle_to_quaternion, quaternion_to_axis_angle, quaternion_angular_distance and acos_linear_extrapolation leaves in the gradients of the inputs the derivative of the weighted results, at every input at which the function has one; in particular the gradients are numbers (the documentation of _sqrt_positive_part promises a zero subgradient at zero, and that of acos_linear_extrapolation stable backpropagation).", "quantifier": "every rotation, quaternion, axis, angle and number; every loss (weights of the results)", "why_tests_cant": "gradcheck-style tests use random rotations, at which all branches are regular; the gradients are at stake on sets of measure zero that robots visit all the time: no rotation, rotations about a coordinate axis, half turns, equal orientations", "anchors": ["src/pytorch_kinematics/transforms/rotation_conversions.py:_sqrt_positive_part", "src/pytorch_kinematics/transforms/rotation_conversions.py:matrix_to_quaternion", "src/pytorch_kinematics/transforms/rotation_conversions.py:quaternion_to_matrix", "src/pytorch_kinematics/transforms/rotation_conversions.py:axis_angle_to_quaternion", "src/pytorch_kinematics/transforms/rotation_conversions.py:quaternion_to_axis_angle", "src/pytorch_kinematics/transforms/rotation_conversions.py:axis_and_angle_to_matrix_33", "src/pytorch_kinematics/transforms/math.py:quaternion_angular_distance", "src/pytorch_kinematics/transforms/math.py:acos_linear_extrapolation"]}
{"id": "C118", "title": "With analytical_grad=False, gradients of every order and of the chain's own parameters are the derivatives", "statement": "forward_kinematics_tensor(th, analytical_grad=False), differentiated by autograd, delivers finite gradients with respect to the joint values, the axes, the static offsets and the link and joint offsets, and they are the derivatives of the loss; for the joint values they are the ones the default (analytical) backward pass returns. With create_graph=True the gradients can be differentiated again, to any order, and a second pass delivers the second derivatives (documented in forward_kinematics_tensor).", "quantifier": "every tree of frames, batch size, joint values, axes and offsets (unit axes and rigid offsets are not needed), every loss with one or two continuous derivatives, every number of backward passes", "why_tests_cant": "tests compare the two backward passes on a few robots at random configurations; whether some configuration makes a recorded operation singular, and orders beyond the second, cannot be sampled", "anchors": ["src/pytorch_kinematics/chain.py:forward_kinematics_tensor", "src/pytorch_kinematics/chain.py:_fk_impl", "src/pytorch_kinematics/chain.py:_FKAnalyticalBackward", "src/pytorch_kinematics/transforms/rotation_conversions.py:axis_and_angle_to_matrix_33", "src/pytorch_kinematics/transforms/rotation_conversions.py:axis_and_d_to_pris_matrix"]}
{"id": "C119", "title": "Gradients of the so3 functions are finite and correct for every accepted rotation", "statement": "Backpropagation through so3_exp_map, so3_log_map (default eps), so3_rotation_angle (cos_bound > 0) and so3_relative_angle delivers finite gradients, equal to the derivatives of what the functions compute, for every input they accept: also at the zero vector, for the identity, for half turns, at the cosines where the inverse cosine is extrapolated and for traces within the tolerance outside [-1, 3]. so3_exp_map's gradient outside its clamped ball is that of the exact exponential map; so3_log_map's gradient at the identity is the exact one to four digits. With cos_bound <= 0 the gradient is non-finite exactly where documented.", "quantifier": "every matrix or vector the functions accept, every incoming gradient, every eps > 0 of so3_exp_map, every eps up to 0.002 of so3_log_map, every cos_bound", "why_tests_cant": "gradients are singular only on sets that random sampling never hits (identity, half turns, the bounds of the extrapolation); a test at the identity does not show that no other accepted matrix divides by zero", "anchors": ["src/pytorch_kinematics/transforms/so3.py:so3_exp_map", "src/pytorch_kinematics/transforms/so3.py:_so3_exp_map", "src/pytorch_kinematics/transforms/so3.py:so3_log_map", "src/pytorch_kinematics/transforms/so3.py:so3_rotation_angle", "src/pytorch_kinematics/transforms/so3.py:so3_relative_angle", "src/pytorch_kinematics/transforms/so3.py:hat", "src/pytorch_kinematics/transforms/so3.py:hat_inv", "src/pytorch_kinematics/transforms/math.py:acos_linear_extrapolation"]}
{"id": "C120", "title": "Gradients flow through transforms to every parameter they were built from, and are the derivatives", "statement": "Build a transform by any program of Transform3d(...), Translate, Scale, Rotate, RotateAxisAngle, the methods translate/scale/rotate/rotate_axis_angle, compose, inverse, stack and indexing, and read its matrix or apply transform_points or transform_normals. Every entry of every argument may come from a tensor that requires a gradient, tensors may be shared between arguments and broadcast over the batch. Backpropagation delivers finite gradients for all of them, equal to the derivatives of what the calls return; a parameter shared by a batch receives the sum (documented in the class docstring, BACKPROP THROUGH TRANSFORMS).", "quantifier": "every program of such calls that returns, every batch size and broadcasting, every value of the inputs with nonzero quaternions, affine matrix arguments and nonzero factors of inverted Scale objects, every incoming gradient", "why_tests_cant": "tests differentiate a few fixed pipelines; nothing short of a proof covers all compositions, sharings and broadcasts, or excludes that one branch detaches a parameter or divides by zero", "anchors": ["src/pytorch_kinematics/transforms/transform3d.py:Transform3d", "src/pytorch_kinematics/transforms/transform3d.py:Translate", "src/pytorch_kinematics/transforms/transform3d.py:Scale", "src/pytorch_kinematics/transforms/transform3d.py:Rotate", "src/pytorch_kinematics/transforms/transform3d.py:RotateAxisAngle", "src/pytorch_kinematics/transforms/transform3d.py:_invert_transformation_matrix", "src/pytorch_kinematics/transforms/transform3d.py:_handle_input", "src/pytorch_kinematics/transforms/transform3d.py:_handle_coord", "src/pytorch_kinematics/transforms/transform3d.py:_broadcast_bmm", "src/pytorch_kinematics/transforms/rotation_conversions.py:_axis_angle_rotation", "src/pytorch_kinematics/transforms/rotation_conversions.py:euler_angles_to_matrix", "src/pytorch_kinematics/transforms/rotation_conversions.py:quaternion_to_matrix"]}
{"id": "C121", "title": "Conversions accept batches of any shape and convert every element on its own", "statement": "Give a function of rotation_conversions tensors with any number of leading dimensions (none, several, or dimensions of size 0). It returns a tensor with the same leading dimensions, the dtype and the device of the input, and the element at each index is the conversion of the input's element at that index; no element influences another. quaternion_multiply, quaternion_raw_multiply, quaternion_apply and axis_and_angle_to_matrix_33 broadcast their arguments by PyTorch's rules; axis_and_angle_to_matrix_44 and axis_and_d_to_pris_matrix broadcast the numbers to the axes. Tensors whose last dimensions have the wrong size are refused where the code unpacks or checks them.", "quantifier": "every batch shape, every dtype and device of a floating-point input, every entry, every convention string", "why_tests_cant": "tests use one or two shapes such as (N, 4); reshapes, gathers, slices and stacks along the wrong dimension, or a mixing of batch elements, only show for other shapes", "anchors": ["src/pytorch_kinematics/transforms/rotation_conversions.py:quaternion_to_matrix", "src/pytorch_kinematics/transforms/rotation_conversions.py:matrix_to_quaternion", "src/pytorch_kinematics/transforms/rotation_conversions.py:axis_angle_to_quaternion", "src/pytorch_kinematics/transforms/rotation_conversions.py:quaternion_to_axis_angle", "src/pytorch_kinematics/transforms/rotation_conversions.py:axis_angle_to_matrix", "src/pytorch_kinematics/transforms/rotation_conversions.py:matrix_to_axis_angle", "src/pytorch_kinematics/transforms/rotation_conversions.py:euler_angles_to_matrix", "src/pytorch_kinematics/transforms/rotation_conversions.py:matrix_to_euler_angles", "src/pytorch_kinematics/transforms/rotation_conversions.py:quaternion_from_euler", "src/pytorch_kinematics/transforms/rotation_conversions.py:standardize_quaternion", "src/pytorch_kinematics/transforms/rotation_conversions.py:quaternion_raw_multiply", "src/pytorch_kinematics/transforms/rotation_conversions.py:quaternion_multiply", "src/pytorch_kinematics/transforms/rotation_conversions.py:quaternion_invert", "src/pytorch_kinematics/transforms/rotation_conversions.py:quaternion_apply", "src/pytorch_kinematics/transforms/rotation_conversions.py:axis_and_angle_to_matrix_33", "src/pytorch_kinematics/transforms/rotation_conversions.py:axis_and_angle_to_matrix_44", "src/pytorch_kinematics/transforms/rotation_conversions.py:axis_and_d_to_pris_matrix", "src/pytorch_kinematics/transforms/rotation_conversions.py:rotation_6d_to_matrix", "src/pytorch_kinematics/transforms/rotation_conversions.py:matrix_to_rotation_6d", "src/pytorch_kinematics/transforms/rotation_conversions.py:se3_9d_to_matrix44", "src/pytorch_kinematics/transforms/rotation_conversions.py:matrix44_to_se3_9d", "src/pytorch_kinematics/transforms/rotation_conversions.py:pos_rot_to_matrix", "src/pytorch_kinematics/transforms/rotation_conversions.py:matrix_to_pos_rot", "src/pytorch_kinematics/transforms/rotation_conversions.py:random_quaternions", "src/pytorch_kinematics/transforms/rotation_conversions.py:xyzw_to_wxyz", "src/pytorch_kinematics/transforms/rotation_conversions.py:wxyz_to_xyzw"]}
{"id": "C122", "title": "Batches of any size: every row of joint values gets its own poses, gradient and Jacobian", "statement": "Give a chain a (B, n) tensor of joint values, B = 0 included. Forward kinematics returns (B, 4, 4) poses per frame, of the dtype and device of the chain, and row b is the pose at row b. The backward pass returns a (B, n) gradient; entry [b, k] is the derivative of the loss in the joint value [b, k] and depends on row b alone, whatever the other rows are and however many. The Jacobian is (B, 6, n), column k of matrix b is the velocity of the returned pose b when entry [b, k] moves; a tool may have one matrix for all rows or one per row. A tensor with one dimension counts as one row. The uninitialised memory of torch.empty never shows.", "quantifier": "every tree, every batch size including 0 and 1, every joint tensor, every upstream gradient, every content of uninitialised memory, every dtype and device", "why_tests_cant": "tests use a few batch sizes; einsums, permutes and reshapes that mix rows with frames or joints can agree for special sizes (B = 1, B = 3, B = n) and B = 0 is rarely tried", "anchors": ["src/pytorch_kinematics/chain.py:_fk_impl", "src/pytorch_kinematics/chain.py:_FKAnalyticalBackward", "src/pytorch_kinematics/chain.py:Chain.forward_kinematics", "src/pytorch_kinematics/chain.py:Chain.forward_kinematics_tensor", "src/pytorch_kinematics/chain.py:SerialChain.jacobian", "src/pytorch_kinematics/chain.py:SerialChain.jacobian_tensor", "src/pytorch_kinematics/chain.py:SerialChain.__init__", "src/pytorch_kinematics/chain.py:Chain.__init__"]}
{"id": "C123", "title": "Inverse kinematics on batches: every entry of a result belongs to its own problem and retry", "statement": "Solve N target poses with R starting values each. Row i * R + r of the flattened tensors is retry r of problem i throughout: the pose error and the step of a row depend on the pose, the Jacobian and the target of that row alone; the step is the weighted damped least-squares minimiser of its row; the kernel with the singular value decomposition returns the same tensors for six joints and more. Starting values of shape (N, R, d), (R, d) or (d,) reach the rows they describe, other sizes raise ValueError. Entry (i, r) of converged, err_pos and err_rot is about entry (i, r) of solutions and target i; with limits enforced every entry of solutions is within the limits; a problem that converges alone converges in a batch with the same solution.", "quantifier": "every number of problems including 0, every number of retries and joints, every chain, targets, weights, damping, starting values, stopping rules, line search and limit settings, every content of uninitialised memory", "why_tests_cant": "tests solve a few batches of one shape; views, repeats and masks that mix problems with retries agree when N = 1, R = 1 or N = R, and a wrong row usually converges too", "anchors": ["src/pytorch_kinematics/ik.py:delta_pose", "src/pytorch_kinematics/ik.py:_ik_step_kernel", "src/pytorch_kinematics/ik.py:_ik_step_kernel_svd", "src/pytorch_kinematics/ik.py:IKSolution", "src/pytorch_kinematics/ik.py:BacktrackingLineSearch", "src/pytorch_kinematics/ik.py:PseudoInverseIK.solve", "src/pytorch_kinematics/ik.py:PseudoInverseIKWithSVD"]}
{"id": "C124", "title": "Transforms on tensors: batch size, dtype, device and every row of every result", "statement": "A Transform3d with n rows composed with one of m rows, where n = m or one of them is 1, has row i equal to the product of the rows i, the dtype of the first operand and honest dtype and device attributes; other sizes raise ValueError, different devices RuntimeError. inverse, stack, indexing by integer, slice or index tensor, transform_points, transform_normals, transform_shape_operator, the constructors with matrix, pos and rot, Translate, Scale, Rotate, RotateAxisAngle, the builder methods, clone and to give every row of the result, its batch size, its dtype and its device, or the documented exception. Points and normals keep their dtype: the matrix is rounded to it and to nothing else.", "quantifier": "all batch sizes including 0 and 1, every mixture of float32 and float64 and every rounding, all devices, clouds with and without batch dimension, all accepted forms of positions, rotations, coordinates and angles, all matrices", "why_tests_cant": "tests use one or two batch sizes in one dtype; broadcasting one row against many, squeezing a batch of one and converting between dtypes are each wrong only for some combination of shape and dtype", "anchors": ["src/pytorch_kinematics/transforms/transform3d.py:Transform3d", "src/pytorch_kinematics/transforms/transform3d.py:Transform3d.compose", "src/pytorch_kinematics/transforms/transform3d.py:Transform3d.inverse", "src/pytorch_kinematics/transforms/transform3d.py:Transform3d.stack", "src/pytorch_kinematics/transforms/transform3d.py:Transform3d.transform_points", "src/pytorch_kinematics/transforms/transform3d.py:Transform3d.transform_normals", "src/pytorch_kinematics/transforms/transform3d.py:Transform3d.transform_shape_operator", "src/pytorch_kinematics/transforms/transform3d.py:Transform3d.to", "src/pytorch_kinematics/transforms/transform3d.py:Translate", "src/pytorch_kinematics/transforms/transform3d.py:Scale", "src/pytorch_kinematics/transforms/transform3d.py:Rotate", "src/pytorch_kinematics/transforms/transform3d.py:RotateAxisAngle", "src/pytorch_kinematics/transforms/transform3d.py:_broadcast_bmm", "src/pytorch_kinematics/transforms/transform3d.py:_handle_input", "src/pytorch_kinematics/transforms/transform3d.py:_handle_coord", "src/pytorch_kinematics/transforms/transform3d.py:_handle_angle_input"]}
{"id": "C125", "title": "Transforms in double precision keep the numbers they are given", "statement": "Build a Transform3d with dtype float64, or with a float64 matrix, and give it Python numbers: translate, scale and rotate_axis_angle, and the arguments pos and rot, use these numbers with double precision; a transform built with dtype d has a matrix of dtype d; transform_points of points of any numeric dtype applies the transform that get_matrix() shows.", "quantifier": "every number, every transform and batch size, every rounding of single and double precision, points of float and integer dtypes", "why_tests_cant": "the rounding of one number to single precision is within the tolerance of every test, and tests use numbers such as 1 or 0.5 that single precision has", "anchors": ["src/pytorch_kinematics/transforms/transform3d.py:Transform3d.__init__", "src/pytorch_kinematics/transforms/transform3d.py:Transform3d.translate", "src/pytorch_kinematics/transforms/transform3d.py:Transform3d.scale", "src/pytorch_kinematics/transforms/transform3d.py:Transform3d.rotate_axis_angle", "src/pytorch_kinematics/transforms/transform3d.py:Transform3d.transform_points", "src/pytorch_kinematics/transforms/transform3d.py:RotateAxisAngle", "src/pytorch_kinematics/transforms/transform3d.py:_broadcast_bmm"]}
{"id": "C126", "title": "Robots loaded from files and moved to double precision have the geometry of the file", "statement": "Load a robot from URDF, SDF or MJCF and call chain.to(dtype=torch.float64): the position of every joint and link offset is the one in the file, as a double-precision number.", "quantifier": "every position, roll, pitch and yaw or quaternion in the file, every rounding, every device", "why_tests_cant": "lengths such as 0.1 differ in the eighth digit only, which tests with tolerances of 1e-5 do not see, and the tests compare the library with itself", "anchors": ["src/pytorch_kinematics/urdf.py:_convert_transform", "src/pytorch_kinematics/sdf.py:_convert_transform", "src/pytorch_kinematics/mjcf.py:_build_chain_recurse", "src/pytorch_kinematics/transforms/transform3d.py:Transform3d.__init__", "src/pytorch_kinematics/transforms/transform3d.py:Transform3d.to", "src/pytorch_kinematics/frame.py:Joint.to", "src/pytorch_kinematics/frame.py:Link.to"]}
{"id": "C127", "title": "Quaternion distance, slerp and the extended arccos work on batches of any shape", "statement": "Call quaternion_angular_distance, quaternion_slerp or acos_linear_extrapolation with tensors of any batch shapes that broadcast: the result has the broadcast shape, the dtype and device of the arguments, and every entry depends on its own pair (and its own interpolation parameter) alone, with the value a call on that pair would give; the parameter of quaternion_slerp is a number or a tensor with one entry per pair.", "quantifier": "every batch shape, every unit quaternion, every number or tensor of parameters, every pair of bounds", "why_tests_cant": "the tests call each function with one shape; a component that takes its weight from another row of the batch shows only for particular sizes, such as 4", "anchors": ["src/pytorch_kinematics/transforms/math.py:quaternion_angular_distance", "src/pytorch_kinematics/transforms/math.py:quaternion_close", "src/pytorch_kinematics/transforms/math.py:quaternion_slerp", "src/pytorch_kinematics/transforms/math.py:acos_linear_extrapolation"]}
{"id": "C128", "title": "The SO(3) maps convert every row of a batch on its own and refuse other shapes", "statement": "hat, hat_inv, so3_exp_map, so3_log_map, so3_rotation_angle and so3_relative_angle take tensors of shape (N, 3) or (N, 3, 3): row n of the result is the cross-product matrix, rotation, rotation vector or angle of row n alone, with the dtype and device of the argument; so3_log_map and so3_exp_map undo each other; a tensor of any other shape raises ValueError, as documented.", "quantifier": "every batch size including zero, every row, every rotation, every other shape", "why_tests_cant": "tests use one batch size and rotations away from 0 and 180 degrees; wrong shapes and empty batches are not tested", "anchors": ["src/pytorch_kinematics/transforms/so3.py:hat", "src/pytorch_kinematics/transforms/so3.py:hat_inv", "src/pytorch_kinematics/transforms/so3.py:so3_exp_map", "src/pytorch_kinematics/transforms/so3.py:so3_log_map", "src/pytorch_kinematics/transforms/so3.py:so3_rotation_angle", "src/pytorch_kinematics/transforms/so3.py:so3_relative_angle"]}
{"id": "C129", "title": "Row k of sample_perturbations perturbs transform k with its own draws", "statement": "sample_perturbations with one transform or one per perturbation, and with no axis, one axis or one axis per perturbation: row k of the result is transform k turned about axis k by angle draw k times radian_sigma and shifted by translation draw k times translation_sigma, perpendicular to axis k if asked for; rigid transforms stay rigid; other numbers of transforms raise RuntimeError.", "quantifier": "every number of perturbations, every transform, axis and draw, shapes (4,4), (1,4,4), (n,4,4) and (3,), (1,3), (n,3)", "why_tests_cant": "the draws are random, so a test can only check sizes and statistics, not which row got which draw", "anchors": ["src/pytorch_kinematics/transforms/perturbation.py:sample_perturbations", "src/pytorch_kinematics/transforms/rotation_conversions.py:axis_and_angle_to_matrix_33"]}
{"id": "C130", "title": "Gradients flow through the Euler, 6D, 9D, pose and quaternion conversions", "statement": "Backpropagation through euler_angles_to_matrix, matrix_to_euler_angles, rotation_6d_to_matrix, se3_9d_to_matrix44, pos_rot_to_matrix, quaternion_raw_multiply, quaternion_multiply, quaternion_invert, quaternion_apply and standardize_quaternion returns the product of the incoming gradient with the exact derivative wherever the function has one, and finite numbers for every rotation.", "quantifier": "every convention, every rotation and argument at which the function is differentiable, every incoming gradient", "why_tests_cant": "the tests check gradients of none of these functions; the failures sit at single orientations, and the 6D and standardize branches are cut by conditions a sampled gradient check does not reach", "anchors": ["src/pytorch_kinematics/transforms/rotation_conversions.py:euler_angles_to_matrix", "src/pytorch_kinematics/transforms/rotation_conversions.py:matrix_to_euler_angles", "src/pytorch_kinematics/transforms/rotation_conversions.py:_angle_from_tan", "src/pytorch_kinematics/transforms/rotation_conversions.py:_axis_angle_rotation", "src/pytorch_kinematics/transforms/rotation_conversions.py:standardize_quaternion", "src/pytorch_kinematics/transforms/rotation_conversions.py:quaternion_raw_multiply", "src/pytorch_kinematics/transforms/rotation_conversions.py:quaternion_multiply", "src/pytorch_kinematics/transforms/rotation_conversions.py:quaternion_invert", "src/pytorch_kinematics/transforms/rotation_conversions.py:quaternion_apply", "src/pytorch_kinematics/transforms/rotation_conversions.py:rotation_6d_to_matrix", "src/pytorch_kinematics/transforms/rotation_conversions.py:pos_rot_to_matrix", "src/pytorch_kinematics/transforms/rotation_conversions.py:se3_9d_to_matrix44"]}
{"id": "C131", "title": "In-place writes never get in the way of gradients", "statement": "Call any function that writes into tensors (quaternion_slerp, quaternion_angular_distance, acos_linear_extrapolation, quaternion_from_euler, sample_perturbations, hat, se3_9d_to_matrix44, pos_rot_to_matrix, Translate, Scale, Rotate, inverse, forward kinematics, the Jacobian with a tool) with tensors that require gradients: the call succeeds, backpropagation from the result succeeds, and every other backpropagation that worked before the call still works.", "quantifier": "every state of the autograd graph and of the write counters, leaves and results of other operations, every robot depth, every axes string", "why_tests_cant": "whether PyTorch refuses depends on what was recorded before the call and which arguments require gradients; tests call most of these functions without gradients, and check values", "anchors": ["src/pytorch_kinematics/transforms/math.py:quaternion_slerp", "src/pytorch_kinematics/transforms/math.py:quaternion_angular_distance", "src/pytorch_kinematics/transforms/math.py:acos_linear_extrapolation", "src/pytorch_kinematics/transforms/rotation_conversions.py:quaternion_from_euler", "src/pytorch_kinematics/transforms/rotation_conversions.py:se3_9d_to_matrix44", "src/pytorch_kinematics/transforms/rotation_conversions.py:pos_rot_to_matrix", "src/pytorch_kinematics/transforms/perturbation.py:sample_perturbations", "src/pytorch_kinematics/transforms/so3.py:hat", "src/pytorch_kinematics/transforms/transform3d.py:Transform3d.inverse", "src/pytorch_kinematics/chain.py:_fk_impl", "src/pytorch_kinematics/chain.py:SerialChain.jacobian"]}
{"id": "C132", "title": "Pipelines of transforms are accurate in floating point", "statement": "Build Transform3d objects from positions, quaternions, translations and angles, compose and invert them in any expression and transform points and normals with the result, in single or double precision: every row of the result is what exact arithmetic gives up to a relative error that grows linearly with the number of operations, relative to the distances involved; a transform composed with its inverse is the identity up to rounding, points taken there and back return, and composing or applying one after the other agree.", "quantifier": "every expression of compose and inverse, every batch size, every arithmetic with bounded relative errors (any order of summation), every precision, all rigid leaves and all points", "why_tests_cant": "tests compare a few transforms with fixed tolerances; they cannot bound the error of all expressions, nor show that no sequence of rotations loses orthogonality faster", "anchors": ["src/pytorch_kinematics/transforms/transform3d.py:Transform3d.compose", "src/pytorch_kinematics/transforms/transform3d.py:Transform3d.inverse", "src/pytorch_kinematics/transforms/transform3d.py:Transform3d.transform_points", "src/pytorch_kinematics/transforms/transform3d.py:Transform3d.transform_normals", "src/pytorch_kinematics/transforms/transform3d.py:RotateAxisAngle.__init__", "src/pytorch_kinematics/transforms/transform3d.py:Translate.__init__", "src/pytorch_kinematics/transforms/transform3d.py:_broadcast_bmm"]}
{"id": "C133", "title": "Forward kinematics neither overflows nor hides infinities and NaN", "statement": "In float32 and float64 with their bounded exponents, forward kinematics of finite joint values returns finite numbers for every arm whose length stays below the largest numbers, with an error that includes gradual underflow and stays proportional to precision and number of frames. Where a joint value is infinite or NaN, every row of the matrix of every frame moved by this joint shows an infinity or NaN; the poses of all other frames, and all other rows of the batch, are exactly what they would be otherwise.", "quantifier": "all chains, all batch sizes, all joint values including infinities and NaN, all formats with rounding to nearest and bounded exponents (and every arithmetic with the stated error bounds)", "why_tests_cant": "tests use moderate finite values; they cannot show that no finite configuration overflows in an intermediate product, nor that NaN in one row or branch never reaches another", "anchors": ["src/pytorch_kinematics/chain.py:Chain.forward_kinematics", "src/pytorch_kinematics/chain.py:Chain._fk_impl", "src/pytorch_kinematics/chain.py:Chain.__init__", "src/pytorch_kinematics/transforms/rotation_conversions.py:axis_and_angle_to_matrix_44", "src/pytorch_kinematics/transforms/rotation_conversions.py:axis_and_d_to_pris_matrix"]}
{"id": "C134", "title": "Infinities and NaN in inverse kinematics stay where they belong", "statement": "Calling an inverse kinematics solver with infinities or NaN in some target poses or starting joint values returns. In arithmetic with overflow, infinities and NaN, an infinity or NaN among the joint values or in the first three rows of the target matrix shows in the pose error; therefore a retry that is reported as converged has finite joint values and a target without infinities and NaN. A joint value that starts as NaN is NaN in the solution. The other problems of the batch are not disturbed: a retry that converges alone converges with the same solution in the batch.", "quantifier": "all serial chains, all targets, all joint values including infinities and NaN, all batch sizes, retries and solver settings, all proposed steps", "why_tests_cant": "tests use reachable finite targets; whether NaN can be hidden by argmax, clamp, comparison or the branch of the quaternion conversion depends on where it occurs", "anchors": ["src/pytorch_kinematics/ik.py:PseudoInverseIK.solve", "src/pytorch_kinematics/ik.py:PseudoInverseIKWithSVD", "src/pytorch_kinematics/ik.py:delta_pose", "src/pytorch_kinematics/ik.py:_ik_step_kernel", "src/pytorch_kinematics/ik.py:_ik_step_kernel_svd", "src/pytorch_kinematics/ik.py:IKSolution.update", "src/pytorch_kinematics/chain.py:SerialChain.jacobian_tensor", "src/pytorch_kinematics/transforms/rotation_conversions.py:matrix_to_quaternion", "src/pytorch_kinematics/transforms/rotation_conversions.py:quaternion_to_axis_angle", "src/pytorch_kinematics/transforms/rotation_conversions.py:quaternion_multiply"]}
{"id": "C135", "title": "From the URDF file to the pose, forward kinematics is accurate in floating point", "statement": "Loading a URDF description (single precision, as the loader does it) and computing forward kinematics in single or double precision gives, for every link, the pose that the description gives it: the product along the path of the declared origins and of the rotations about or translations along the declared axes scaled to length 1. The rotation is off by at most a constant times the coarser unit roundoff, times the number of links on the way, times 1 plus the size of the declared roll-pitch-yaw angles; the position by the same factor of the length of the translations on the way. Nothing is lost to angle conversion near gimbal lock, to quaternions of small components or to axes of any length.", "quantifier": "all descriptions that are trees, all axes other than zero, all angles, all joint values and batch sizes, all roundings with the given relative error, all 24 axis sequences for the conversion of Euler angles", "why_tests_cant": "tests compare one or two robots with stored poses at a tolerance; how errors of parsing, angle conversion, normalisation and products accumulate over all robots needs a proof", "anchors": ["src/pytorch_kinematics/urdf.py:_convert_transform", "src/pytorch_kinematics/urdf.py:_build_chain_recurse", "src/pytorch_kinematics/urdf.py:build_chain_from_urdf", "src/pytorch_kinematics/transforms/rotation_conversions.py:quaternion_from_euler", "src/pytorch_kinematics/transforms/rotation_conversions.py:quaternion_to_matrix", "src/pytorch_kinematics/frame.py:Joint.__init__", "src/pytorch_kinematics/transforms/transform3d.py:Transform3d.__init__", "src/pytorch_kinematics/chain.py:Chain.forward_kinematics"]}
{"id": "C136", "title": "From the SDF or MJCF file to the pose, forward kinematics is accurate in floating point", "statement": "Loading an SDF model or a compiled MJCF model (single precision, as the loaders do it) and computing forward kinematics in single or double precision gives every link, body and site its declared pose. The rotation is off by at most a constant times the coarser unit roundoff times the number of frames on the way (for SDF also times 1 plus the size of the angles). The position is off by the same factor of a length: for MJCF the length of the translations on the way, for SDF, where a joint offset is computed as the inverse of one link pose times another, the distances of the two links of every joint on the way from the model origin. Quaternions of any length are accepted. The poses of visuals and geoms are accurate as well.", "quantifier": "all SDF models that are trees and all supported compiled models, all axes other than zero, all quaternions other than zero, all angles, all joint values and batch sizes, all roundings with the given relative error", "why_tests_cant": "tests load one or two models and compare at a tolerance; cancellation in the offsets of SDF joints far from the origin shows only there, and the accumulated bound needs a proof", "anchors": ["src/pytorch_kinematics/sdf.py:_convert_transform", "src/pytorch_kinematics/sdf.py:_convert_visuals", "src/pytorch_kinematics/sdf.py:_build_chain_recurse", "src/pytorch_kinematics/sdf.py:build_chain_from_sdf", "src/pytorch_kinematics/mjcf.py:body_to_geoms", "src/pytorch_kinematics/mjcf.py:_build_chain_recurse", "src/pytorch_kinematics/mjcf.py:build_chain_from_mjcf", "src/pytorch_kinematics/transforms/rotation_conversions.py:euler_angles_to_matrix", "src/pytorch_kinematics/transforms/rotation_conversions.py:quaternion_to_matrix", "src/pytorch_kinematics/frame.py:Joint.__init__", "src/pytorch_kinematics/transforms/transform3d.py:Transform3d.__init__", "src/pytorch_kinematics/transforms/transform3d.py:Transform3d.inverse", "src/pytorch_kinematics/transforms/transform3d.py:Transform3d.compose", "src/pytorch_kinematics/chain.py:Chain.forward_kinematics"]}
{"id": "C137", "title": "The analytical gradient is accurate in floating point", "statement": "For every upstream gradient on the poses of all frames, each entry of the joint gradient that backpropagation through forward kinematics returns (computed in single or double precision from the poses computed in the same precision) is the exact derivative of the loss up to a relative error that grows linearly with the depth of the tree and the number of frames. The error is relative to what the upstream gradient of the frames that the joint moves can contribute: for a turning joint twice the Frobenius norm of the rotation block plus twice the distance times the length of the position block, for a sliding joint the length of the position block. Frames that the joint does not move contribute nothing to the error, however large their upstream gradient.", "quantifier": "all trees, all joint values, batch sizes and upstream gradients, all roundings with the given relative error, all orders of summation", "why_tests_cant": "gradient tests compare with finite differences or autograd at a tolerance for one robot; cancellation between the two cross products for frames far from the base shows only for particular configurations", "anchors": ["src/pytorch_kinematics/chain.py:_FKAnalyticalBackward.backward", "src/pytorch_kinematics/chain.py:Chain.forward_kinematics_tensor", "src/pytorch_kinematics/chain.py:_fk_impl"]}
{"id": "C138", "title": "Infinities and NaN stay where they belong in the analytical gradient", "statement": "The gradient of a joint that backpropagation through forward kinematics returns depends, row by row, only on the poses and upstream gradients of the frames that the joint moves: an infinity or NaN in another row of the batch, or in the pose or upstream gradient of a frame on another branch, does not reach it. With finite poses and upstream gradients that are not too large, all gradients are finite.", "quantifier": "all trees, batch sizes, poses and upstream gradients with infinities and NaN, all IEEE arithmetics", "why_tests_cant": "gradient tests use finite values; that a mask of zeros and ones in a matrix product lets infinities through (0 * inf = NaN) shows only for a tree with branches and a non-finite value on one of them", "anchors": ["src/pytorch_kinematics/chain.py:_FKAnalyticalBackward.backward", "src/pytorch_kinematics/chain.py:Chain.forward_kinematics_tensor", "src/pytorch_kinematics/chain.py:_fk_impl"]}
{"id": "C139", "title": "The exponential map is accurate in floating point", "statement": "For a rotation vector theta * a with a unit axis a, the matrix that so3_exp_map computes differs from the rotation by theta about a in every entry by a small multiple of the machine precision times 1 + theta, plus 2e-7 where the function clamps the angle (theta < 0.01). The cancellation in 1 - cos(theta) and the division by small angles do not amplify the error.", "quantifier": "all axes and angles theta >= 0, all arithmetics with the usual rounding error bounds", "why_tests_cant": "tests compare a few vectors with a tolerance; that no vector, near zero or large, loses more accuracy is a statement about all of them and all roundings", "anchors": ["src/pytorch_kinematics/transforms/so3.py:so3_exp_map", "src/pytorch_kinematics/transforms/so3.py:_so3_exp_map", "src/pytorch_kinematics/transforms/so3.py:hat"]}
{"id": "C140", "title": "The logarithm map is accurate in floating point and undoes the exponential map", "statement": "so3_log_map of a batch of matrices that are rotations by angles theta <= pi - 0.02 about unit axes a up to small errors in the entries raises nothing and returns theta * a, up to the error of the entries and of the arithmetic divided by sin(theta)^2, and up to 2e-4 * theta for angles below 0.02, where the code extrapolates. In particular so3_log_map(so3_exp_map(v)), with rounding in both, returns v up to 8000 machine precisions divided by sin(|v|)^2.", "quantifier": "all batch sizes, axes, angles in [0, pi - 0.02], perturbations of the entries and arithmetics with the usual rounding error bounds", "why_tests_cant": "the exact formulas divide by sin(phi), take acos near 1 and switch branches at a threshold that rounding can cross; which accuracy survives for every matrix cannot be read off samples", "anchors": ["src/pytorch_kinematics/transforms/so3.py:so3_log_map", "src/pytorch_kinematics/transforms/so3.py:so3_rotation_angle", "src/pytorch_kinematics/transforms/so3.py:hat_inv", "src/pytorch_kinematics/transforms/so3.py:so3_exp_map", "src/pytorch_kinematics/transforms/math.py:acos_linear_extrapolation", "src/pytorch_kinematics/transforms/math.py:_acos_linear_approximation"]}
{"id": "C141", "title": "The 6D rotation representation is decoded accurately in floating point", "statement": "If a1 = alpha * R[0] and a2 = beta * R[0] + gamma * R[1] for a rotation R with alpha, gamma >= 2e-12 (every linearly independent pair has this form with positive alpha and gamma), rotation_6d_to_matrix(cat(a1, a2)) differs from R in every entry by at most 120 machine precisions times (|beta| + gamma) / gamma, as long as that ratio stays below the inverse of 1000 machine precisions. In particular rotation_6d_to_matrix(matrix_to_rotation_6d(R)) returns R up to 120 machine precisions.", "quantifier": "all rotations, lengths and components of the two vectors and arithmetics with the usual rounding error bounds", "why_tests_cant": "the projection step cancels when the vectors are almost parallel; how much accuracy is left for every pair cannot be read off samples", "anchors": ["src/pytorch_kinematics/transforms/rotation_conversions.py:rotation_6d_to_matrix", "src/pytorch_kinematics/transforms/rotation_conversions.py:matrix_to_rotation_6d"]}
{"id": "C142", "title": "Rotation vectors, quaternions and matrices are converted accurately in floating point", "statement": "For a unit vector a and theta >= 0, axis_angle_to_quaternion(theta * a) is the quaternion of the rotation by theta about a and axis_angle_to_matrix(theta * a) its matrix, up to (5 + 2 theta) resp. (63 + 18 theta) machine precisions per entry and 1e-17 for the truncated series. quaternion_to_axis_angle of a nearby quaternion is theta * a up to 31 times the error of the quaternion and 103 machine precisions, however small the angle. In particular quaternion_to_axis_angle(axis_angle_to_quaternion(v)) returns v up to 470 machine precisions for lengths up to pi - 0.05.", "quantifier": "all axes, angles and arithmetics with the usual rounding error bounds", "why_tests_cant": "both conversions divide by quantities that vanish with the angle and switch to a series at 1e-6, a threshold that rounding can cross; which accuracy survives for every vector cannot be read off samples", "anchors": ["src/pytorch_kinematics/transforms/rotation_conversions.py:axis_angle_to_quaternion", "src/pytorch_kinematics/transforms/rotation_conversions.py:axis_angle_to_matrix", "src/pytorch_kinematics/transforms/rotation_conversions.py:quaternion_to_axis_angle"]}
{"id": "C143", "title": "Points are rotated accurately by quaternions in floating point", "statement": "quaternion_apply(q, p), for a quaternion q whose components are within eta of those of a unit quaternion Q and a point with coordinates up to P, is the point rotated by Q up to (17 eta + 40 machine precisions) * P in every coordinate. In particular quaternion_apply(axis_angle_to_quaternion(theta * a), p) is p rotated by theta about the unit vector a up to (125 + 34 theta) machine precisions times P.", "quantifier": "all quaternions near a unit quaternion, points, axes, angles and arithmetics with the usual rounding error bounds", "why_tests_cant": "the result is a sum of sixteen rounded products with cancellations, and the quaternion is never exactly normalised; the worst case over all of them cannot be sampled", "anchors": ["src/pytorch_kinematics/transforms/rotation_conversions.py:quaternion_apply", "src/pytorch_kinematics/transforms/rotation_conversions.py:quaternion_raw_multiply", "src/pytorch_kinematics/transforms/rotation_conversions.py:quaternion_invert", "src/pytorch_kinematics/transforms/rotation_conversions.py:axis_angle_to_quaternion"]}
{"id": "C144", "title": "The angular distance of quaternions is accurate in floating point", "statement": "Let the rows of q1 and q2 be within eta per component of unit quaternions, u the machine precision, eta + u at most 5e-7, and theta the angle of the relative rotation of a pair. If some pair of the batch has sin(theta/2)^2 at least 1.1e-4, quaternion_angular_distance returns for every pair with sin(theta/2)^2 above 200 (eta + u) a value within (50 eta + 75 u) / sin(theta/2) of theta, and for every pair a value within 14 sqrt(eta + u) of theta; no result is NaN, whatever the quaternions. If all pairs have sin(theta/2)^2 at most 0.9e-4, it returns 0 for all of them although theta can be about 0.019. For every batch whatsoever each result is within 0.034 of theta.", "quantifier": "all batches of quaternions near unit quaternions and arithmetics with the usual rounding error bounds", "why_tests_cant": "the sine is computed by a subtraction that cancels and a square root that magnifies the error and returns NaN for a negative argument; the worst case over all pairs and batches cannot be sampled", "anchors": ["src/pytorch_kinematics/transforms/math.py:quaternion_angular_distance", "src/pytorch_kinematics/transforms/math.py:quaternion_close"]}
{"id": "C145", "title": "Spherical interpolation is accurate in floating point", "statement": "Let the rows of q1 and q2 be within eta per component of unit quaternions A and B, where B is taken with the sign that makes A.B positive, u the machine precision and t in [0,1]. If eta + u is at most 5e-7, every A.B is above 5 (eta + u) and some A.B is at most 1 - 4e-6, then quaternion_slerp returns for every pair with A.B below 1 - 5 (eta + u) no NaN and a quaternion within 71 eta + 102 u per component of the point at fraction t of the great arc from A to B, however small the angle. If eta + u is at most 1e-7 and every A.B is at least 1 - 4e-7, the result is within 3.1 eta + 9.5 u + 1.1e-6 of that point.", "quantifier": "all batches of quaternions near unit quaternions, t in [0,1] and arithmetics with the usual rounding error bounds", "why_tests_cant": "the angle comes from an arccos that magnifies rounding errors near 1, and the weights divide by its sine; that the two effects cancel for every angle cannot be seen from samples", "anchors": ["src/pytorch_kinematics/transforms/math.py:quaternion_slerp"]}
{"id": "C146", "title": "The extended arccos is accurate in floating point", "statement": "acos_linear_extrapolation on a torch.float64 tensor, with bounds l <= u inside (-1, 1) and u0 the machine precision, 1 - l^2 and 1 - u^2 at least 1000 u0: no square root of a negative number is taken; between the bounds the result is arccos x up to the relative precision of acos; outside it is the tangent at the nearer bound b up to 7 u0 |x - b| / (1 - b^2)^(3/2) + 7 u0. With the default bound and x above it the error is at most (2.5e6 (x - b) + 7) / 2^53.", "quantifier": "all bounds, arguments and arithmetics with the usual rounding error bounds", "why_tests_cant": "the slope is computed from 1 - b*b, which cancels for bounds near 1, and is multiplied by the distance from the bound; the worst case over all bounds and arguments cannot be sampled", "anchors": ["src/pytorch_kinematics/transforms/math.py:acos_linear_extrapolation", "src/pytorch_kinematics/transforms/math.py:_acos_linear_approximation", "src/pytorch_kinematics/transforms/math.py:_dacos_dx"]}
{"id": "C147", "title": "Relative angles of rotation matrices are accurate in floating point", "statement": "so3_relative_angle(R1, R2), for matrices whose entries are within eta of rotations and u a bound on the machine errors, eta + u at most 7e-7, never raises. With cos_angle=True it returns the cosine of the angle phi between the rotations up to 38 eta + 20 u, whatever phi. With cos_angle=False it returns phi up to (140 eta + 72 u) / sin(phi) for phi from 0.02 to pi - 0.02; for phi below 0.02 it returns a value between 0.004 and 0.022. For phi from pi - 0.02 on it returns a value between pi - 0.022 and pi - 0.004, so that the error is at most 0.022 for every pair, and the angle of a rotation to itself is at least 0.004. If the exact trace of R1 R2^T of some element is outside [-1, 3] by more than 0.0002 (entries up to 2), ValueError is raised with either value of cos_angle.", "quantifier": "all batches of near rotations (the rejection: all batches of matrices) and arithmetics with the usual rounding error bounds", "why_tests_cant": "the test of the trace must accept every rotation despite rounding, and the arccos magnifies the errors of a trace that is itself a sum of nine rounded products; the worst case over all pairs cannot be sampled", "anchors": ["src/pytorch_kinematics/transforms/so3.py:so3_relative_angle", "src/pytorch_kinematics/transforms/so3.py:so3_rotation_angle"]}
{"id": "C148", "title": "The warning about invalid rotation matrices means what it says", "statement": "_check_valid_rotation_matrix, for u a bound on the machine errors (at most 1e-6) and delta on that of torch.det: a batch of matrices within eta of rotations causes no warning if 7 eta + 4 u is at most the tolerance and 19 eta + 1.1 delta at most 1e-5. If there is no warning (delta at most 1e-6, tolerance at most 1e-3), the entries of R R^T are those of the identity up to 1.001 tol + 1.5e-5 and the determinant is 1 up to 1.2e-5, for every matrix of the batch. A batch that contains a matrix with determinant at most 0, or at the tolerance 1e-5 of Rotate a rotation scaled by a factor off by 3e-5 or more, always causes it. While compiling nothing is checked.", "quantifier": "all batches of real matrices and arithmetics with the usual rounding error bounds", "why_tests_cant": "the check compares rounded products and a rounded determinant with tolerances close to the precision of float32; whether it accepts every rotation and no other matrix cannot be sampled, and one bad element of a batch must suffice", "anchors": ["src/pytorch_kinematics/transforms/transform3d.py:_check_valid_rotation_matrix"]}
