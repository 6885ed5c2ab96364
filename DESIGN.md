# Formal model of pytorch_kinematics — design

The verified artefact is a Lean 4 model (`lean/Verif/Model`) written function by function from
`/repo/src/pytorch_kinematics`. The properties are in `properties.jsonl`, the theorems that settle each
one in `MANIFEST.json`, the axioms behind each theorem in `AXIOMS.md`, the experiments with wrong programs in
`seeded/LOG.jsonl`.

## 1. Layout

| directory | content |
|---|---|
| `lean/Verif/Model` | the model, one file per Python module; every definition cites file and lines and says what it simplifies |
| `lean/Verif/Spec` | small specifications that do not mention the code's formulas: SO(3) from Mathlib, Rodrigues' vector formula, Hamilton quaternions from Mathlib, tree paths, what a URDF/SDF/MJCF document declares, what a derivative of a pose is |
| `lean/Verif/Lemmas` | helper lemmas |
| `lean/Verif/Props` | the theorems `C<NN>_…` of the properties, each followed by an `example` that meets its hypotheses |
| `tools` | `manifest.py` (MANIFEST.json from the theorem names and `notes.json`), `axioms.py` (AXIOMS.md from `#print axioms`) |
| `seeded` | log of the mutation experiments |

Theorem names: a plain suffix is a proof of (a clause of) the property; `_partial` proves the part that holds when the
property as stated is false or only partly provable; `_fails…` (and the names listed in section 5) prove the negation by a
concrete witness, or for all inputs of a class.

## 2. Trusted base

1. **Lean 4.33.0's kernel.**
2. **Axioms**: every theorem in the manifest depends on a subset of `propext`, `Classical.choice`, `Quot.sound`
   (`AXIOMS.md`, generated from `#print axioms`, lists them by theorem). There are no axioms of our own, no `sorry`, no
   `native_decide`, no `bv_decide`.
3. **The reading of the Python source.** The model is tied to the code by reading only; the citations are there to be checked.
4. **The meaning of external primitives**: torch (matmul, where, cat, expand/broadcast, clamp, norm, linalg.solve, svd, atan2,
   indexing, in-place writes), Python (dict order, `lru_cache`, `str.split`, `float`, exceptions) and lxml (the element tree) are modelled by their documented
   meaning. `torch.randn`/`torch.rand` are parameters, and in C99–C101 independent standard normal/uniform numbers. `mujoco`'s compiler is outside: the MJCF model starts at the compiled model's arrays.
5. **Scalars are exact real numbers.** Rounding, overflow, subnormals and float32/float64 differences are outside the model,
   with these exceptions: C102, C114-C116, C132, C135-C137 and C139-C148 bound the rounding errors of forward kinematics, Jacobians, rotation
   conversions, reported pose errors, pipelines of transforms, loading of files, gradients, the exponential and logarithm maps, the 6D representation, rotation vectors, rotated points, angular distances, interpolation, the extended arccos, relative angles and the check of rotation matrices (without overflow and underflow); C133, C134
   and C138 have bounded exponents, overflow, underflow, infinities and NaN in forward kinematics, its gradient and inverse
   kinematics (unsigned zero); C125 and C126
   round where values are converted between dtypes. Gradients (C117-C119) are exact numbers extended by NaN and infinities.
   Where the code's behaviour on NaN and infinities matters (absent limits, missing dict entries, clamping, wrapping, IK
   errors) the scalar type is `Fl` = NaN | -inf | real | +inf with ideal IEEE rules (no signed zero). Thresholds in the code
   (1e-6, 1e-4, 1e-12, …) are kept literally, so the branches they select are part of the theorems.

## 3. What is modelled and what is not

| Python | Lean | modelled | not modelled |
|---|---|---|---|
| `chain.py` `Chain`, l.172-640 | `Model/Chain.lean` | `__init__` (queue loop, index tables, levels, limits), all listing and lookup methods, `ensure_tensor`, `forward_kinematics(_tensor)`, `get_frame_indices`, `clamp`, limits | `torch.compile`, dtype and device (in `Model/Tags.lean`, `Model/Cache.lean`) |
| `chain.py` `_fk_impl`, `_FKAnalyticalBackward` l.13-170 | `Model/Chain.lean`, `Model/Backward.lean`, `Model/Autograd.lean` | local transforms, level-wise accumulation, the analytical backward; first and second gradients of any loss, with the saved poses as constants | the backward of other torch operations: autograd is taken to return the partial derivatives of what it records |
| `chain.py` caches and `to`, l.350-375, l.420, l.497 | `Model/Cache.lean` | `lru_cache` with 128 entries, shared by all chains, keyed by identity; references into a heap; caller writes; `to` | cache of `get_all_frame_indices` beyond its value |
| `chain.py` `SerialChain` l.650-860 | `Model/Serial.lean` | construction by path surgery, `jacobian(_tensor)`, tool, input forms, `forward_kinematics` | |
| `chain.py` l.656-685, `frame.py`: frames as objects | `Model/Heap.lean` | references between frames, links and joints; `copy.deepcopy`, `find_frame`, the surgery of `SerialChain.__init__`; programs that edit frames | the memo of `deepcopy` (matters only when frames of one tree share a link or joint); writes into the matrix of an offset are replacements of the offset |
| `frame.py` | `Model/Frame.lean` | `Visual`, `Link`, `Joint`, `Frame`, `get_transform`, `__str__`, `clamp` | `to`, `__repr__` |
| `ik.py` | `Model/IK.lean`, `Model/IKObj.lean` | constructor, `sample_configs`, `gaussian_around_config`, `clear`, `delta_pose`, both step kernels, `IKSolution`, `BacktrackingLineSearch`, the loop of `solve`, early stopping, limit enforcement, assignment of start configurations | `debug` plots, `use_compile`, dtype |
| `chain.py`, `frame.py`, `ik.py`: dtype and device of every tensor | `Model/Tags.lean`, `Model/TagsIK.lean` | `Chain.__init__`, `to`, `_fk_impl`, backward, `SerialChain.__init__`/`to`/`jacobian`, the solver, with torch's rules for operands of different dtype or device | values (they are in the other files); 0-dimensional tensors as a special case of the rules; `debug`, `use_compile` |
| `chain.py` `_fk_impl`, l.318-322, `rotation_conversions.py` l.452-525: rounding | `Model/Float.lean` | every arithmetic operation of forward kinematics, with its rounding error | overflow, underflow, signed zero; `cos`/`sin` of rounded angles beyond their absolute error; the `where` between joint types is a selection |
| `urdf.py` l.13-70, 105-123, `rotation_conversions.py` l.724-777, `frame.py` l.47-70: rounding | `Model/FloatLoad.lean` | every arithmetic operation of loading a parsed URDF description, with its rounding error | parsing of decimal numbers is exact; the caller's tensor of `quaternion_from_euler`; overflow, underflow |
| `sdf.py` l.13-101, `mjcf.py` l.17-85, `rotation_conversions.py` l.185-207: rounding | `Model/FloatLoad2.lean` | every arithmetic operation of loading a parsed SDF description and a compiled MuJoCo model, with its rounding error | parsing is exact; `0.5 * math.pi` is rounded once; overflow, underflow |
| `chain.py` l.128-169: rounding | `Model/FloatGrad.lean` | every arithmetic operation of the analytical backward pass with its rounding error | the order of summation is arbitrary; overflow, underflow |
| `chain.py` l.128-169 with infinities and NaN | `Model/IeeeGrad.lean` | the analytical backward pass over finite numbers, infinities and NaN | sums run from left to right; axes are finite; zeros are unsigned |
| `rotation_conversions.py` l.413-449, l.527-544 and l.563-587 in floating point | `Model/FloatAxisAngle.lean`, `Model/FloatApply.lean` | every arithmetic operation of `axis_angle_to_quaternion`, `axis_angle_to_matrix` and `quaternion_apply` | underflow and overflow are not modelled |
| `math.py` l.13-45 in floating point | `Model/FloatDist.lean` | every arithmetic operation of `quaternion_angular_distance` and `quaternion_close` | underflow and overflow are not modelled; `torch.sum` adds from left to right |
| `math.py` l.48-77 in floating point | `Model/FloatSlerp.lean` | every arithmetic operation of `quaternion_slerp` on an `(N, 4)` batch with a Python number `t` | underflow and overflow are not modelled; `1.0 - t` and `1.0 - 1e-6` are rounded once; the write into the caller's `q2` is modelled elsewhere (C47) |
| `math.py` l.80-153 in floating point | `Model/FloatAcos.lean` | every arithmetic operation of `acos_linear_extrapolation` on one element of a `torch.float64` tensor | underflow and overflow are not modelled; the checks of the bounds are modelled in `Model/Math.lean` (C44) |
| `so3.py` l.12-89 in floating point | `Model/FloatRelAngle.lean` | every arithmetic operation of `so3_relative_angle`, default tolerances | underflow and overflow are not modelled; `torch.bmm` has a relative error per product |
| `transform3d.py` l.754-780 in floating point | `Model/FloatCheck.lean` | `_check_valid_rotation_matrix` and `torch.allclose`, every arithmetic operation | `torch.det` is a function with an error bound; infinities, NaN, underflow and overflow are not modelled |
| `rotation_conversions.py` l.616-637 in floating point | `Model/FloatSixD.lean` | every arithmetic operation of `rotation_6d_to_matrix` and `F.normalize` | underflow and overflow are not modelled; the sums are in any order |
| `so3.py` l.40-214 and `math.py` l.80-153 in floating point | `Model/FloatSo3.lean` | every arithmetic operation and check of `so3_exp_map`, `so3_log_map`, `so3_rotation_angle` (default arguments), `hat_inv` | underflow and overflow are not modelled; the sums of `.sum(1)` and `bmm` are in any order; Python's own arithmetic on constants is exact |
| `ik.py` l.36-48, 92-129, 397-428, 459-642, `chain.py` l.714-759, `rotation_conversions.py` l.96-180, 359-425, 590-613 with infinities and NaN | `Model/IeeeIK.lean` | Jacobian, pose error, the step of the SVD kernel and the solver over finite numbers, infinities and NaN | `torch.linalg.solve` and the factors of `torch.linalg.svd` are arbitrary functions; `svd` raises exactly for matrices with infinities or NaN; zeros are unsigned |
| `chain.py` l.656-705, l.714-817: rounding of the Jacobian | `Model/FloatJac.lean` | every arithmetic operation of `jacobian_tensor` and of `jacobian` with a tool | as above; `x + 0` of the prismatic correction is rounded once more |
| `rotation_conversions.py` l.44-72, l.101-154, l.375-410, l.590-613: rounding | `Model/FloatRot.lean` | every arithmetic operation; `sin` near 0, `atan2` and `norm` with relative errors (`TrigMachine`) | overflow, underflow; the four squares of `quaternion_to_matrix` are summed from left to right |
| `ik.py` l.166-260, l.397-428, l.459-642: rounding | `Model/FloatIK.lean` | every arithmetic operation of the pose error; the solver over arbitrary elementary operations | tolerances and limits as stored in the dtype; the rows of a batch are evaluated as if alone; the step kernels are left open |
| PyTorch's autograd; `rotation_conversions.py` l.44-154, l.495-524, l.563-613, `math.py` l.13-45, l.80-153: gradients | `Model/Tape.lean`, `Model/TapeRot.lean` | the operations recorded for one batch element (for `quaternion_angular_distance`: a batch), entry by entry; reverse pass with PyTorch's local factors; values and gradients are numbers, infinities or NaN | arithmetic of numbers is exact, zeros are unsigned; two versions of the derivative of `torch.norm` at zero; sums of several products with Python numbers are one operation, a product of the same two entries is recorded once |
| `chain.py` l.13-93, l.315-322, l.507-540 with `analytical_grad=False`: gradients | `Model/TapeFk.lean` | the operations recorded by `_fk_impl`, entry by entry, for any batch; axes, static offsets and link and joint offsets are inputs; the record that a backward pass with `create_graph=True` leaves | rotations and translations are recorded for all joints, the code omits those that no frame uses; in-place writes are recorded as copies; a recorded backward pass records the forward values again. `Joint.__init__` converts a given axis without keeping its history, so gradients of axes are those of `chain.axes` |
| `so3.py` l.12-252: gradients | `Model/TapeSo3.lean` | the operations recorded by `so3_exp_map`, `so3_log_map`, `so3_rotation_angle`, `so3_relative_angle` (with `hat`, `hat_inv` and `acos_linear_extrapolation`), entry by entry | one batch element (elements do not share values); branches, `sign` and `== 0` are fixed by the values of the recorded call and pass no gradient |
| `transform3d.py` l.146-751: gradients | `Model/TapeT3.lean` | the operations recorded by the constructors, `compose`, `inverse`, `stack`, indexing, `get_matrix`, `transform_points` (without `eps`) and `transform_normals`, for whole batches; broadcasting, `expand`, `repeat` and `cat` as index maps | a number given as argument is a constant; conversions between dtypes are exact; `transform_shape_operator` and `eps` are not recorded |
| `rotation_conversions.py`: shapes | `Model/Tensor.lean`, `Model/TensorRot.lean` | every function of the file on tensors of any number of dimensions, with broadcasting, dtypes and devices | `torch.randn` is an argument; integer tensors and mixed dtypes are outside of the theorems; entries are exact reals |
| `chain.py` l.13-170, l.315-322, l.507-540, `SerialChain` l.700-817: shapes | `Model/TensorChain.lean` | `_fk_impl`, the analytical backward, `forward_kinematics` of a tensor, `jacobian` with and without a tool, on tensors with shapes, dtypes and devices; the tables a chain stores | one dtype and device; exact reals; the autograd graph is not represented here (C118) |
| `ik.py` l.13-260, l.459-660: shapes | `Model/TensorIK.lean` | `delta_pose`, `_ik_step_kernel`, `_ik_step_kernel_svd`, `IKSolution`, `BacktrackingLineSearch`, `solve`, `_wrap_revolute_joints`, `_enforce_joint_limits` on tensors with shapes, dtypes and devices | exact reals extended by nan and infinities; `view` is `reshape`; the debug plots, the mean improvement the line search returns for them and `torch.compile` are left out; `torch.linalg.svd` is any function returning decompositions of the rows |
| `transforms/rotation_conversions.py` | `Model/RotConv.lean` | all functions | `random_*` draws are parameters here; their distribution is in `Model/Random.lean` |
| `transforms/transform3d.py` | `Model/Transform3d.lean` | `Transform3d`, `Translate`, `Scale`, `Rotate`, `RotateAxisAngle`, builders, `compose`, `inverse`, `stack`, indexing, `transform_points/normals/shape_operator`, `clone`, `to` | `batch_to_batch=True` (calls another package), `__repr__`, warnings |
| `transforms/transform3d.py`: memory | `Model/Alias.lean` | which tensors and transforms share storage, in-place writes, for construction, indexing, composition, builders, `clone`, `stack`, `inverse`, `to`, `get_matrix` | writes through `transform_points` results (always new) |
| `transforms/transform3d.py`: shapes and dtypes | `Model/TensorT3.lean` | the whole file on tensors with shapes, dtypes and devices: `Transform3d` and its subclasses, `_broadcast_bmm`, `_handle_input`, `_handle_coord`, `_handle_angle_input` | arithmetic exact, conversions between dtypes round; `view` is `reshape`; lists for `pos` and `rot` are tensors (`listT`); `batch_to_batch=True`, `__repr__`, `sample_perturbations`, warnings |
| `transforms/math.py`, `so3.py`, `perturbation.py`: shapes | `Model/TensorMath.lean` | every function on tensors with shapes, dtypes and devices, operation by operation | arithmetic exact; `torch.randn` results are arguments; an axis with three or more dimensions in `sample_perturbations` is not modelled |
| `transforms/rotation_conversions.py`: gradients of the remaining conversions | `Model/TapeConv.lean` | every operation and its backward formula | arithmetic exact with NaN and infinity; one element of a batch; `F.normalize` is `x / max(norm, 1e-12)` as its source says |
| Functions that write in place: autograd bookkeeping | `Model/InPlace.lean` | write counters, saved tensors, leaves, multi-output views; which function reads, keeps and writes what, in order | PyTorch's rules (`check_inplace`, `SavedVariable::unpack`) are part of the trusted base; groups of operations without writes are one operation that keeps all of its arguments; grad mode on; writes to slices count as writes to the tensor |
| `transforms/transform3d.py` in floating point | `Model/FloatT3.lean` | compose, inverse (by class), transform_points, transform_normals, RotateAxisAngle, position and quaternion constructor, on an arbitrary machine | machine as in `Model/Float.lean` plus products of four terms; negation, transposition and products with 1 and -1 are exact; one precision per object except for RotateAxisAngle, which is rounded to single precision |
| `chain.py` `_fk_impl`, l.318-322, `rotation_conversions.py` l.452-525 with bounded exponents | `Model/Ieee.lean` | every arithmetic operation of forward kinematics over finite numbers, infinities and NaN: overflow, gradual underflow, rounding to nearest even | zeros are unsigned; offsets and axes are finite; the sums of `@` in the concrete formats run from left to right (the theorems need only the stated error bounds) |
| `urdf.py` l.16-18, `sdf.py` l.17, `mjcf.py` l.23-83: dtypes | `Model/TensorLoad.lean` | lists given to `Transform3d`, and the offsets the loaders build, as tensors with dtypes and rounding conversions | arithmetic exact; the rest of the loaders is in `Model/Urdf.lean`, `Sdf.lean`, `Mjcf.lean` |
| `transforms/so3.py`, `math.py`, `perturbation.py` | `Model/So3.lean`, `Model/Math.lean`, `Model/Perturb.lean` | all functions, in-place writes included | random draws are parameters; their distribution is in `Model/Random.lean` |
| `urdf.py`, `sdf.py`, `mjcf.py` | `Model/Urdf.lean`, `Model/Sdf.lean`, `Model/Mjcf.lean`, `Model/Loader.lean` | conversion to frames, root detection, recursion (with Python's recursion depth as `fuel`), serial variants | file access for meshes and assets; MuJoCo's compiler |
| `urdf_parser_py/urdf.py`, `sdf.py`, `xml_reflection/*` | `Model/Urdf.lean`, `Model/Sdf.lean`, `Model/Xml.lean` | reading: required/optional attributes and elements, value types, aggregates, first-wins scalars, all elements the loaders accept | YAML, ROS parameter server, namespaces, tail texts, messages printed for unknown elements; all reading errors are one error `parseError` |
| `xml_reflection/core.py` as an engine, the tables of `urdf.py` and `sdf.py` | `Model/Reflect.lean`, `Model/ReflectTables.lean` | `Reflection.set_from_xml`, `add_to_xml`, every value type, `Object.read_xml`, `write_xml`, `to_xml`, every class of both tables; proved to read as the files above | printing the tree as a string (any formatting of it is covered by `Same`); `parent_cls`, `get_refl_vars`; numbers print so that they read back (`Fmt.Exact`) |
| `Robot.get_root`, `Robot.get_chain` (`urdf_parser_py/urdf.py`) | `Model/RobotApi.lean` | the maps of `add_aggregate` as reading builds them, the loop of `get_chain` with a bound on its iterations | assertions are a ValueError; edits of a robot by hand |
| `jacobian.py`, `cfg.py` | – | `calc_jacobian` is `jacobian` | |

Modelling decisions

* 4x4 and 3x3 matrices are Mathlib `Matrix`; a batch is `Fin B → _`, a `(B, n)` joint tensor is the list of its `n` columns;
  a `Transform3d` batch is a list.
* Exceptions: `Except Err _` with one constructor per Python exception class used.
* Dictionaries: association lists in insertion order. Names: `List Char`.
* `Frame` is an inductive tree (a `Frame` that is its own descendant is not expressible). `Chain.__init__`'s queue loop is
  written literally; it terminates because the total size of the trees in the queue shrinks. `torch.empty` is `none` until
  written; reading it, an index out of range or a failed broadcast are explicit errors.
* The IK solver is written over an arbitrary evaluation function; `Realises` says when it is the one the code computes, and
  `realises_exists` shows that there is one for every chain.
* Python's `float` is an arbitrary function `NumParser` from text to numbers: the document theorems hold for every number syntax.

## 4. Properties: what is modelled, how it is proved

"P" proved as stated, "p" partial (section 5 gives the reason).

| id | | model used and proof |
|---|---|---|
| C01 | P | `Chain.init`, `fkTensor`. Loop invariant of the queue (indices, parents, pending frames), then induction on levels: a frame's accumulated product is the product along its path. Frame names must not begin or end with a newline: the constructor strips them. |
| C02 | P | Product of rigid matrices is rigid, Rodrigues' matrix of a unit axis is in SO(3); the constructor normalises axes. |
| C03 | P | Every step of `fkTensor` is pointwise in the row. |
| C04 | P | `get_frame_indices` reads the index table of C11; the subset query selects from the same tensor. |
| C05, C06 | P | From C01: a path that avoids the joint has the same product; Rodrigues' rotation is 2π-periodic. |
| C07 | P | Pre-order of `_get_joints` by mutual structural induction; limit arrays by the same list. |
| C08, C09 | P | `ensure_tensor` on dicts: NaN-filled table, `foldl` of writes; list induction. Narrowed: C08 to chains with at least one moving joint (the empty dict raises IndexError, `C08_empty_dict_raises`), C09 to non-empty batches (`C09_empty_batch_unnoticed`). |
| C10 | p | broadcasting rules for `m` columns. |
| C11 | P | Invariant of the queue loop. |
| C12, C14, C64 | P | Mutual structural induction over trees. |
| C13 | p | `_get_joints` with and without `exclude_fixed`. |
| C15 | P | clamp on `Fl`. |
| C16 | P | `fkBackward` unfolded to a sum over frames below each joint; derivative of a path product (`HasDerivAt` of `List.prod`), each derivative is `hat`/axis times pose. |
| C17, C18 | P | `jacobian_tensor` columns are the twist of the end effector: derivative of the path product, adjoint algebra; the tool is a constant affine factor. |
| C19, C20 | P | Path surgery of `SerialChain.__init__`: the nest of copied frames has exactly the suffix of the path; products telescope. |
| C21, C66 | p | `JIn` input forms of `jacobian`/`forward_kinematics`. |
| C22–C26, C74, C75 | P/p | `readRobot`, `buildRoot`, `buildRecurse`: the recursion visits every link once (strong induction on depth in an `IsTree`), tables `link_map`; `Declared` states what the description says. Document level: a writer `robotXml` with arbitrary number syntax, for all elements of a description except transmissions and gazebo, read back. C22 narrowed to the four joint types the loader knows. |
| C27, C28, C78–C80 | P/p | the same for SDF. |
| C29, C81–C84 | p/P | compiled model → frames; induction over the body order (`parentid < id`). |
| C30–C34, C67–C71 | P/p | lists of matrices with broadcasting; matrix algebra. |
| C35–C42, C65 | P/p | algebra over ℝ, trigonometry, case analysis of branches. C38 and C42 narrowed (small-angle band; `F.normalize` below 1e-12). |
| C43–C48 | p/P | the same; C43's error in the excluded band is bounded. |
| C49, C50 | P/p | `Sol.update` as a state machine, invariant over every list of updates. |
| C51, C52, C59, C60, C61, C72 | P | invariants of the solver loop and of limit enforcement. |
| C53, C57, C62 | p | the same. |
| C54, C55 | P/p | positive-definite matrices, completing the square; any valid reduced SVD. |
| C56 | P | invariant of the line-search loop. |
| C58 | P | C37/C38/C39 combined. Narrowed: below 1e-6 rad the length is exact only up to a relative 1e-13 (Taylor branch). |
| C63, C73 | p | heap, caches and chains as a state machine; invariant over every program of calls (construction, queries, `to`, caller writes). |
| C76 | P | relation `Same` between documents; every reader is invariant under it. |
| C77 | P | C22/C27/C29 with C19/C20. |
| C85, C86 | P | `Frame.getTransform`, `Joint.clamp` against C01 and the limit tables of `Chain.init`. |
| C87 | P | the first `update` of the loop records the start, later ones keep it (C49's invariant); limit enforcement by C53's cases. |
| C88 | P | `IKObj`: the solver object with the counters that survive a call; induction on the history of calls. |
| C89 | P | `ikConstruct`, `sampleConfigs`; random draws are parameters with the range torch documents. |
| C90 | P | the path product is differentiable in all joint values together; chain rule with C17's columns as partial derivatives. |
| C91 | P | C90 along the step; derivative of the angle through `arccos` of the trace (squeezed by `cos θ ≤ 1 - 2θ²/π²` at 0); normal equations of C54. |
| C92 | p | `convertVisual`, `bodyToGeoms` in closed form, carried through the tree recursion as a field of `Loaded`; `Shows` (in `Spec/Visual.lean`) says what a `Visual` stands for. `C92_turned_cylinder` justifies ignoring turns about a cylinder's axis. |
| C93 | P | tensors as pairs of dtype and device, torch's operand rules; `ChainTags.At` says where every tensor is. `to` establishes it from every constructed chain (induction over the calls); under it each operation is computed. |
| C94–C96 | p | the same; the solver by induction over iterations, line-search steps and refinements. |
| C97 | p | Programs over a heap of matrix storages; fresh storage is never reached by programs that do not name it (induction over programs, invariant: references stay below the heap size). |
| C98 | P | Frames, links and joints as objects with references. A region that references do not cross is unchanged by programs that hold no reference into it (induction over programs); `deepcopy` and the surgery make a closed region of new objects; the trees read from it are those of `Model/Serial.lean`. |
| C99 | P | `Model/Random.lean`: `torch.randn` as a product of standard normal laws; a sampling function as a map, what it returns has the image law. `Spec/Random.lean`: uniform = unchanged by rotations on either side. Multiplying a sample of four normals by a unit quaternion is an orthogonal map, which keeps the normal law (Mathlib), and `quaternion_to_matrix` turns it into the product of rotations; every rotation comes from a unit quaternion (C37). Uniqueness of the uniform law by exchanging integrals. The zero sample has probability 0. |
| C100 | P | Same model for the three draws of `sample_perturbations`; the law of the noise (displacement, rotation relative to the input) is computed as a product measure over rows and within a row. The direction of three normals is unchanged by rotations; there is one such law of directions. Perpendicular case: an orthonormal basis containing the axis. |
| C101 | P | `torch.rand` as a product of uniform laws on `[0, 1)`; the constructor of C89 on these draws; image of a product measure under entrywise maps; uniform law as Mathlib's conditioned Lebesgue measure. |
| C102 | P | `Model/Float.lean`: the operations of `Chain.__init__` and `_fk_impl` that compute numbers, over an arbitrary arithmetic (`Machine`): relative error of each operation, absolute error of `cos`/`sin`, a matrix product whose terms carry relative errors (any order of summation, with or without fused multiply-add). Lookups, accumulation order and dictionary are those of the exact model. The result is the product along the path in the machine's arithmetic (as for C01, without associativity); relative errors of products of rigid transforms multiply, because multiplication by a rotation keeps the Frobenius norm; induction along the path. The error of the joint rotation is computed entry by entry. `binary p` (rounding to nearest with `p` digits, exponent unbounded) is such an arithmetic. |
| C103 | P | `Spec/Valid.lean` states the schema as conditions on the document alone (`HasAttr`, `OptChild`, `IsVec`, …), independent of the parser's classes. For each class of the parser: reading succeeds exactly when its condition holds (`Good` and its combinators in `Lemmas/Good.lean`); both directions for the whole document. Acceptance then by C22/C27/C79. The kind of exception is not part of the claim. Vector entries that are `inf` or `nan` are outside the model, so rejection is claimed only for documents that are invalid even when these count as numbers, acceptance only for documents with finite entries. For SDF the schema is what the parser accepts (`<inertial>`, `<axis>` required, `<filename>`); how this differs from the SDF specification is C79. `Urdf.C103_urdf_joint_types`, `Sdf.C103_sdf_joint_types`: a chain is built only if every joint below one of its frames has a supported type. |
| C104 | P | `Spec/Defaults.lean`: `Filled S a b` (document `b` is `a` with omitted parts written out) and the two tables of defaults. For each parser class the values read from `a` and `b` agree after normalisation (absent origin = zero pose), and the loader does not distinguish normalised models. Excluded because the code disagrees or distinguishes: the default axis (C25), the scale of a mesh (`None` and `1 1 1` are both kept as read), SDF bounds (C80). |
| C105 | p | For every document that loads: the frames are the links reachable from the chosen root, below each frame the children of its joints in order, no joint leads to the root, no cycle is reachable (`Kept`, by induction on the recursion, for any graph). One frame per link exactly when the document describes a tree: the frames other than the root are a permutation of the children of the frames, hence of the joints' children. Documents without a root are rejected. |
| C106 | p | By C08 and C09: an accepted dictionary holds every joint; the others raise. |
| C107 | P | The error of `delta_pose` is close to a smooth map with derivative minus the Jacobian (C58, C90 and smoothness of forward kinematics); the damped step contracts its range by a fixed factor (spectral bound of `A Aᵀ (A Aᵀ + λ)⁻¹` on the range of `A`); an abstract contraction lemma gives invariant neighbourhoods; induction over the loop. |
| C108 | p | Forward kinematics as one smooth map of all joint values (`exists_smooth`); `backward` pairs the upstream gradient with its derivative (C16 and uniqueness of derivatives), so the chain rule gives the gradient of every loss of poses and of the Jacobian. Second pass: the recorded statements see the saved poses as constants, so the term of the second derivative of the poses is missing: exact formula, equality where the gradient vanishes and on prismatic chains, negation `C108_second_order_fails`. |
| C109 | P | The pose of a serial chain is the product of the local transforms below its root (`serial_pose`); lengths of positions under rigid transforms give both bounds on the distance of the end (`Spec/Reach.lean`); with C51 a converged retry is within the tolerance of a point that the chain reaches. With enforced limits every returned row is a clamped row. |
| C110 | P | Induction along the path: a rotation by `a` moves a point by at most `a` times its distance, angles of rotations add up at most (`rotAngle_mul_le`, through unit quaternions), both are invariant under the fixed offsets. |
| C111 | p | The engine of `xml_reflection` is modelled as an interpreter of class tables (`Model/Reflect.lean`, `Model/ReflectTables.lean`). What it reads is characterised without its loops (`Cls.read_iff`), and it reads a document as the readers of `Model/Urdf.lean` do (`U.robot_iff`, in both directions). Value types and classes are stable: what was read is written without error and reads the same (`Cls.written`), class by class up to `Robot`, where `<gazebo>` elements are treated separately. |
| C112 | p | As C111 with the tables of `sdf.py` (`S.sdf_iff`, `S.sdf_stable`); the flags are the only values that do not read back. |
| C113 | P | `Model/RobotApi.lean` models the maps that `add_aggregate` builds, `get_root` and the loop of `get_chain` with a bound on its iterations. `get_root` is characterised for every robot, `get_chain` by induction on the path (`Spec.chainNames`); agreement with the builders through C22 and C77. On a description with a cycle the loop never ends (`C113_cycle_runs_forever`). |
| C114 | P | `Model/FloatJac.lean`: `SerialChain.__init__` with the machine's `Chain.__init__`, `jacobian_tensor` and `jacobian` with a tool, in the arithmetic of C102 (`Machine.dot` for the `einsum`, `Machine.det2` for a component of `torch.cross`, both with relative errors in each term). C102 gives the pose of each moving frame and of the end; the errors of axis, difference of positions and cross product follow (`Lemmas/JacRound.lean`), where the cancellation in the difference is harmless because the bound is relative to the length of the arm. The exact velocity of the ideal robot is a derivative (`Spec.HasTwistAt`), not the formula of the code. `C114_precision` compares with the exact `jacobian` of C17. |
| C115 | P | `Model/FloatRot.lean`: `matrix_to_quaternion`, `quaternion_to_matrix`, `quaternion_raw_multiply`, `quaternion_multiply`, `quaternion_to_axis_angle` operation by operation in the arithmetic of C102. The selected component has `q_abs >= 0.9`, since the four exact values have squares with sum 4; the division is then well conditioned (`Lemmas/QuatRound.lean`). `Spec.Turns` says that a quaternion turns vectors (by Hamilton's product) as a matrix does. |
| C116 | P | `Model/FloatIK.lean`: `delta_pose` operation by operation; the solver loop, line search, wrapping and limit enforcement over arbitrary elementary operations (`SolverArith`), which with the exact operations is `Model/IK.lean` (`solveWith_exact`). The recorded errors belong to the recorded joint values (invariant of the loop, for every arithmetic). Pose from C114, quaternions from C115, their product, and `quaternion_to_axis_angle` in both branches (`Lemmas/AngleRound.lean`: the half angle is conditioned by `atan2`, the length of the result by `sin h / h`). `ReportsErrorFl` leaves the proposed step open; it assumes, as `Realises` does, that a non-finite joint value shows up in the error. |
| C117 | V, partial | `Model/Tape.lean` models what PyTorch records and its reverse pass over extended scalars (0/0 is NaN), with the local factors of PyTorch's `derivatives.yaml`; `Prog.sound` proves once and for all that the reverse pass delivers the derivative (`Spec.IsVJP`) when every recorded operation is differentiable where it is evaluated, or receives a zero gradient there. `Model/TapeRot.lean` are the records of the conversions; each is proved to compute the function of `Model/RotConv.lean`. Proved without exception for `quaternion_to_matrix`, `axis_and_angle_to_matrix_33`, `acos_linear_extrapolation` (also at and beyond its bounds). `matrix_to_quaternion` delivers the derivative along every curve of rotations when no component of the quaternion is zero (`C117_matrix_to_quaternion_partial`; the choice by `argmax` does not matter), and NaN whenever one is zero (`C117_fails_matrix_to_quaternion`), so for a revolute joint whose axis has a zero component at *every* angle (`C117_fails_revolute_joint`). See section 5. |
| C118 | V, proved | `Model/TapeFk.lean` is the record of `_fk_impl` (joint transforms, static offsets, the loop over the levels) with joint values, `_static_offsets` and `axes` (`fkProg`) or link and joint offsets (`fkOffProg`) as inputs. `fkOf_eq` proves that it computes `Chain.fkTensor` of the chain with these parameters, whatever they are. Sums, products, sines and cosines are the only operations (`fkProg_smooth`), so `Prog.sound` of C117 applies at every input: `C118_gradient`, `C118_offsets`, `C118_loss`; equality with the analytical backward pass of C16: `C118_agrees`. `Prog.grad` is the record that a backward pass leaves with `create_graph=True`; it consists of the same operations, so the argument repeats: `C118_every_order`, and `C118_second_order` for a loss of the poses. `C118_second_order_arm` is the arm for which C108 is violated: two recorded passes return the second derivative -2 where the analytical pass reports 0. |
| C119 | V, proved | `Model/TapeSo3.lean` are the records of the four functions. `so3_exp_map`: every operation is regular except the clamp on the sphere of radius sqrt(eps), where its gradient is that of the unclamped record (`expMap_back`), which computes the rotation about v by |v|: `C119_exp_map`. For the angles, the recorded branch and the extrapolated inverse cosine agree to first order at every cosine (`angleThen_vjp` with `hasDerivAt_acosExtrap`): `C119_rotation_angle`, `C119_relative_angle`, stated for one function that the call evaluates on every accepted batch. `so3_log_map`: the sine of the extrapolated angle of every accepted trace exceeds 0.002 (`sin_extrap_gt`), so neither the clamp nor the division is singular: `C119_log_map`; `C119_log_map_identity` gives the gradient at the identity explicitly. `C119_rotation_angle_unbounded`: cos_bound <= 0. |
| C120 | V, proved | `Model/TapeT3.lean`: `TExpr` is a program of calls whose arguments refer to numbers or to entries of input tensors, `TExpr.build` runs it with `Model/Transform3d.lean`, `TExpr.tape` is the record PyTorch makes, computed from the shapes. `TExpr.build_match` proves by induction over programs that both raise alike and that the record computes the matrices that the calls return; `points_match`, `normals_match` add the application. `TExpr.regAt_tape` shows that no recorded operation is singular at a regular input (the denominators of `transform_points` are 1 by `TExpr.affine`), so `Prog.sound` of C117 gives the gradient: `C120_points`, `C120_normals`, `C120_matrix`. `C120_methods`: the builder methods are such programs. `C120_shared_translation`: the explicit gradient of a broadcast parameter. |
| C121 | V, proved | `Model/Tensor.lean` is a tensor with a shape, a tag (dtype and device) and an entry per multi-index, with PyTorch's broadcasting, `unbind`, `stack`, `cat`, `reshape`, slicing, `gather`, `expand`, `repeat`, `matmul` and assignments to regions; `Model/TensorRot.lean` has every function of `rotation_conversions.py` on such tensors, operation by operation. `Lemmas/TensorRot.lean` evaluates each one on a tensor of shape `s + (n,)` or `s + (n, m)` for an arbitrary list `s`; `Lemmas/TensorExpr.lean` does so for arithmetic expressions of broadcast operands. The theorems of `Props/Batch.lean` read the results off: shape, tag, and each element as the function of `Model/RotConv.lean` at that element. They justify that the other files model one batch element. |
| C122 | V, partial | `Model/TensorChain.lean` has `_fk_impl`, the analytical backward pass, `forward_kinematics`, `jacobian` and the tool correction on tensors with shapes, operation by operation (`torch.empty`, `index_select`, masks broadcast by `reshape(-1, 1, 1)`, `einsum`, `expand`, `cross`, `permute`, `reshape(L, B * 3)` and back). `Lemmas/TensorFk.lean` evaluates the loop over the levels and shows that every entry of the uninitialised tensor is overwritten before it is read; `Lemmas/TensorGrad.lean` and `Lemmas/TensorJac.lean` evaluate the rest for every `B`. The results are the functions of `Model/Chain.lean`, `Model/Backward.lean` and `Model/Serial.lean`, whose theorems (C01, C16, C17, C18) give the meaning. `C122_fails_empty_batch` proves that the backward pass raises for `B = 0`. |
| C123 | V | `Model/TensorIK.lean` has `delta_pose`, both step kernels, `IKSolution`, the line search and `PseudoInverseIK.solve` with `_enforce_joint_limits` on tensors with shapes, operation by operation (`view`, `unsqueeze`, `repeat`, `cat`, `linalg.solve`, boolean masks read and written, `any`, `all`, `where`). `Lemmas/TensorTab.lean` reads tensors as tables, `Lemmas/TensorIK.lean` and `Lemmas/TensorSolve.lean` show by induction over the iterations that the tensor solver is the row solver of `Model/IK.lean` for every evaluation that works row by row; `Lemmas/TensorKernel.lean`, `TensorSvd.lean` and `TensorEval.lean` show that the kernels and the chain's Jacobian are such an evaluation. C51, C52, C54, C55, C58, C59 and C72 then give the meaning of every entry. |
| C124 | V | `Model/TensorT3.lean` has `transform3d.py` on tensors with shapes, dtypes and devices, operation by operation; a conversion between floating dtypes applies a rounding `rd`, about which `C124_points` assumes only that it returns numbers of the dtype and keeps those (`IsRounding`, `Spec/Dtype.lean`). `Lemmas/TensorT3.lean`, `TensorT3Ops.lean` and `TensorT3Init.lean` compute every operation on tensors given by their entries; the theorems in `Props/BatchT3.lean`, `BatchT3Init.lean` and `BatchT3Build.lean` put these together, with arbitrary batch sizes, dtypes and devices, and describe each row by the matrices of `Spec/Rot.lean`. `C124_points_eps`: denominators of at least `eps` are kept, smaller ones become `eps` with their sign. |
| C125 | V, partial | `Spec/Dtype.lean` describes single and double precision as sets of numbers and roundings as functions into them that keep them. `Model/TensorLoad.lean` adds lists to the constructor of `Model/TensorT3.lean`. With the dtype of the transform given to every call nothing is rounded (`C125_builders_partial`, `C125_position_list_partial`, `C125_points_partial`). The defaults round to single precision, for every rounding: `C125_fails_builders`, `C125_fails_position_list`, with the double 0.1; `RotateAxisAngle` has no way to return double precision (`C125_fails_rotate_axis_angle`); integer points meet a matrix without fractions (`C125_integer_points`, `C125_fails_integer_points`). |
| C126 | V, partial | The offsets the three loaders build (`Model/TensorLoad.lean`) are the poses of the numbers rounded to single precision (`C126_urdf`, `C126_sdf`, `C126_mjcf`), and conversion to double precision keeps those: `C126_positions_partial` for positions that single precision has, `C126_fails` for 0.1. |
| C127 | V, partial | `Model/TensorMath.lean` has `math.py` on tensors, with NaN and infinity for the divisions of slerp and the write of slerp into its second argument. `C127_angular_distance` and `C127_acos` hold for every shape. `quaternion_slerp` is right for lists of pairs, shape `(N, 4)` (`C127_slerp_partial`), and, for nearly parallel pairs, every shape (`C127_lerp`). Violated otherwise: `C127_single_pair_fails`, `C127_grid_fails`, `C127_grid4_wrong`, `C127_one_target_fails`, `C127_one_target4_wrong`, `C127_steps_fail`. |
| C128 | V, partial | `Model/TensorMath.lean` has `so3.py` on tensors; `Lemmas/TensorSo3.lean` shows that on batches it is the row-wise model of C43. `C128_hat`, `C128_hat_inv`, `C128_exp`, `C128_rotation_angle`, `C128_relative_angle`, `C128_shapes`; log and exp undo each other away from half turns (`C128_log_exp_partial`, `C128_exp_log_partial`). Violated: `C128_log_half_turn_fails`, `C128_log_empty_fails`, `C128_relative_shape_fails`, `C128_relative_accepts`. |
| C129 | V | `Model/TensorMath.lean` has `sample_perturbations` on tensors with the draws as arguments, including the broadcast of one transform and one axis and the in-place subtraction: `C129_axis`, `C129_random_axis`, `C129_sizes`. |
| C130 | V, partial | `Model/TapeConv.lean` records the operations of the conversions as the tape of C119 does; `Op.RegAt` covers arccos, atan2 on its whole domain, clamped minimum and the norm. Proved equal to the derivative of the value model everywhere it exists: `C130_euler_angles_to_matrix`, `C130_rotation_6d_to_matrix`, `C130_rotation_6d_zero`, `C130_se3_9d_to_matrix44`, `C130_pos_rot_to_matrix`, `C130_quaternion_raw_multiply`, `C130_quaternion_multiply`, `C130_quaternion_invert`, `C130_quaternion_apply`, `C130_standardize_quaternion`, and, away from gimbal lock and the cuts of the outer angles, `C130_matrix_to_euler_angles_partial`. Names refused by the tape are those refused by the code: `C130_refused`. Violated at gimbal lock: `C130_fails_gimbal_lock`. |
| C131 | V, partial | `Model/InPlace.lean` has PyTorch's bookkeeping (memory blocks with write counters, leaves, outputs of `unbind`, graph nodes with what they keep) and every function of the library that writes in place as a program over it. `Spec/InPlace.lean` says what is asked; it is proved from any state for `C131_angular_distance`, `C131_acos`, `C131_fill_matrix`, `C131_inverse`, `C131_fk` (any number of levels), `C131_jacobian_tool`, and with conditions for `C131_slerp_partial`, `C131_perturbations_partial`, `C131_from_euler`. Violated: `C131_fails_slerp_leaf`, `C131_fails_slerp_backward`, `C131_fails_slerp_other`, `C131_fails_perturbation_axis`, `C131_fails_from_euler`, `C131_fails_from_euler_other`. |
| C132 | P | `Model/FloatT3.lean` has compose, the inverses of the classes, `transform_points`, `transform_normals`, `RotateAxisAngle` and the pose constructor with the operations of an arbitrary machine, and expressions (`Pipe`). `Spec.Stands`: a computed transform and the exact rigid matrices it stands for. `C132_pipeline` (all expressions; exactly the size mismatches raise), `C132_linear`, `C132_cancels`, `C132_points`, `C132_points_flat`, `C132_round_trip`, `C132_sequential`, `C132_normals`; leaves `C132_pose`, `C132_translate`, `C132_rotate_axis_angle`; `C132_precision` with explicit constants for `q` binary digits. Rigid leaves only (no `Scale`); overflow and underflow are not modelled. |
| C133 | P | `Model/Ieee.lean`: forward kinematics over numbers with infinities and NaN (`Fl`), in an arithmetic (`Ieee`) whose operations have a relative and an absolute error (underflow) below a bound and are strict in infinities and NaN. `ieee p e E` constructs it: rounding to nearest even with `p` digits, gradual underflow below `2 ^ e`, overflow above `2 ^ E`; `float32` and `float64` are instances. The result is the product along the path (`forwardKinematicsI_ok`). `C133_finite`: finite entries and error bound, where underflow counts as a small extra length per translation; `C133_formats` with constants for each format; `C133_isolated` (rows and branches); `C133_visible`. Examples: `exTree` in `float32`, overflow of `2 ^ 128`, underflow, a NaN joint. Zeros are unsigned; offsets and axes are finite. |
| C134 | partial | `Model/IeeeIK.lean`: `jacobian_tensor`, `delta_pose` with `matrix_to_quaternion` (argmax over values with NaN, `clamp(min=0.1)`), `quaternion_multiply`, `quaternion_to_axis_angle`, and `solve` over numbers with infinities and NaN in the arithmetic of C133 (`IeeeRot`; `ieeeRot p e E` constructs it). `C134_error_visible`; `C134_converged`; `C134_nan_start`; `C134_others` (no line search, before limit enforcement: C59 for every arithmetic); `C134_returns_partial`: the call on tensors returns when the kernel does not raise. `C134_fails_svd`: `PseudoInverseIKWithSVD` raises for the whole batch as soon as one target position has NaN. The first two discharge, in this model, the assumption `propagates` of `ReportsErrorFl` and `Realises`. Examples: `exTree` in `float32` with one good and one NaN target. |
| C135 | P | `Model/FloatLoad.lean`: `quaternion_from_euler`, the normalisation of the axis and the URDF loader operation by operation on a `TrigMachine`. `Spec/FloatLoad.lean`: `Posed`, the poses, path lengths and depths of the links of a description by recursion from its root (`C135_posed`: they exist), from its records only. `C135_from_euler` (all 24 sequences), `C135_load` (the tree, with origins and axes up to a multiple of the unit roundoff), `C135_end_to_end` (two arithmetics: one loads, one computes), `C135_single` (`float32` loading; `depth / 1000` for angles up to 4). |
| C136 | P | `Model/FloatLoad2.lean`: `euler_angles_to_matrix` and the SDF and MJCF loaders operation by operation. `Spec/FloatLoad2.lean`: `SdfPosed`, `MjPosed`, the poses, lengths and depths of links, bodies and sites by recursion over the records of the description (`C136_sdf_posed`, `C136_mjcf_posed`: they exist; `C136_sdf_zero`: at zero they are the pose elements; `C136_mjcf_placed`: with anchors at the origins they are where MuJoCo places the bodies). `C136_sdf_load`, `C136_mjcf_load` (the trees with offsets and axes up to a multiple of the unit roundoff), `C136_sdf`, `C136_mjcf` (to the pose), `C136_sdf_visual`, `C136_mjcf_geoms`, `C136_sdf_single`, `C136_mjcf_single` (`float32` loading with explicit numbers). |
| C137 | P | `Model/FloatGrad.lean`: `_FKAnalyticalBackward.backward` operation by operation on a machine with sums of products of any length (`SumMachine`). `Spec/FloatGrad.lean`: `pull`, `pullSum`, `ListsPaths`. The loss is the `G`-weighted sum of the exact poses of the ideal robot (as in C102), differentiated with `HasDerivAt`. `C137_rounding` (any machine, any stored data near an ideal robot), `C137_precision` (`q` binary digits, sums one after the other: at most `2 (198 n + N + 36) / 2 ^ q`). |
| C138 | partial | `Model/IeeeGrad.lean`: `_FKAnalyticalBackward.backward` operation by operation over numbers with infinities and NaN in the arithmetic of C133. `Spec/IeeeGrad.lean`: `Fb c x` (finite and at most `c`). `C138_rows` (rows are independent), `C138_finite` (bounded finite rows have finite, bounded gradients), `C138_branches_partial` (finite, not too large values of frames that the joint does not move do not change its gradient at all). Missing: the same for infinities and NaN on other branches, which the code violates: `C138_spreads` and `C138_joint_spreads` (for every robot, any such value makes the gradients of all revolute joints of the row infinite or NaN), `C138_fails` (`exTree` in `float32`). |
| C139 | proved | `Model/FloatSo3.lean`: `so3_exp_map` operation by operation on the machine of C132. Specification: `rotAbout` (C43), which is not the formula of the code inside the clamp. `C139_exp` (any machine), `C139_precision` (binary formats with at least 13 bits, `float32` and `float64` among them). `so3ExpMapFl_near` bounds the rounding errors, `so3ExpMap_clamped` the effect of the clamp. |
| C140 | proved | `Model/FloatSo3.lean`: `so3_log_map`, `so3_rotation_angle`, `acos_linear_extrapolation` and `hat_inv` operation by operation, with their checks. Specification: the vector `theta a` of the rotation `rotAbout a theta`. `C140_log` (any machine, matrices with perturbed entries, each row with its own error), `C140_round_trip` (after the computed `so3_exp_map`, C139), `C140_precision` (binary formats with at least 28 bits). Near zero the proof does not follow the branches: every one of them returns an angle between 0.004 and 0.022, for which `phi / (2 sin phi)` is almost 1/2. Angles above pi - 0.02 are excluded; the result is wrong there without rounding too (`C43_log_half_turn_fails`). |
| C141 | proved | `Model/FloatSixD.lean`: `rotation_6d_to_matrix` operation by operation, with the clamp of `F.normalize`. Specification: the rotation `R` whose first row is the direction of `a1` and whose second row is the direction of the part of `a2` orthogonal to it; the formulas of the code do not occur in it. `C141_rotation_6d` (any machine), `C141_every_pair` (every linearly independent pair is covered, with the geometric meaning of the three numbers), `C141_round_trip`, `C141_precision` (binary formats with at least 13 bits). Shorter vectors than 2e-12 are excluded; the result is wrong there without rounding too (`C42_tiny_input_fails`). |
| C142 | proved | `Model/FloatAxisAngle.lean`: `axis_angle_to_quaternion` and `axis_angle_to_matrix` operation by operation; `quaternion_to_axis_angle` as in C115. Specification: `(cos(theta/2), sin(theta/2) a)`, the rotation `rotAbout a theta` and the vector `theta a`. `C142_quaternion`, `C142_matrix` (any machine, any angle), `C142_rotation_vector` (any quaternion near that of a rotation by at most pi, with nonnegative real part), `C142_round_trip`, `C142_precision`, `C142_round_trip_precision` (binary formats). Both branches at 1e-6 are followed, so the vectors between 0 and 1e-6 that C38 leaves out are covered here, with the error of the series. The round trip stops at pi - 0.05, because the error of `atan2` is only assumed in the first quadrant. |
| C143 | proved | `Model/FloatApply.lean`: `quaternion_apply` operation by operation. Specification: the product of the rotation matrix with the point (`quaternionToMatrix Q`, in C36 the rotation of `Q`; `rotAbout a theta`). `C143_apply` (any machine, quaternion off by `eta`), `C143_rotation_vector` (after the computed `axis_angle_to_quaternion`, C142), `C143_precision` (binary formats with at least 20 bits). |
| C144 | proved | `Model/FloatDist.lean`: `quaternion_angular_distance` and `quaternion_close` operation by operation, on a batch. Specification: `rotAngle` of the relative rotation matrix `R(q1) R(q2)^T`. `C144_distance` (any machine; the argument of the square root is positive, so no NaN), `C144_close` (the whole batch is within the threshold: all results are 0, and the angles are at most 0.03; this is the known disagreement C45), `C144_precision` (binary formats with at least 24 bits). `Props/FloatDistAll.lean`: `C144_no_nan` (all quaternions; the rounding keeps `[0, 1]`, which `roundTo_le_one` proves for binary formats), `C144_every_pair` and `C144_every_pair_precision` (also pairs closer than that), `C144_every_batch` (no hypothesis on the batch: between the two thresholds rounding decides whether it counts as close). |
| C145 | proved | `Model/FloatSlerp.lean`: `quaternion_slerp` operation by operation, on a batch, with `torch.acos` of small relative error. Specification: `arcPoint A B t`, which `C145_arc` shows to be the unit quaternion dividing the angle in the ratio `t : 1 - t`. `C145_slerp` (spherical branch; `acos` and the division get arguments in their domains, so no NaN; the bound does not depend on the angle because `sin(r x)/sin x` is Lipschitz in `cos x`, `sinRatio_cos`), `C145_linear` (linear branch), `C145_precision` (binary formats with at least 24 bits). Not covered: pairs within `5 (eta + u)` of parallel in a batch that is not close, for which `acos` can get an argument above 1 (known disagreement C46), and pairs that nearly are orthogonal, for which rounding decides which of the two arcs is taken. |
| C146 | proved | `Model/FloatAcos.lean`: one element of `acos_linear_extrapolation` operation by operation, including the operations on Python numbers, for tensors of the same format (`torch.float64`). Specification: arccos between the bounds, the tangent `arccos b - (x - b) / sqrt(1 - b^2)` outside. `C146_acos` (any machine), `C146_precision` (53 bits, symmetric bound up to the default). Other dtypes are not covered here: there the bounds themselves are rounded (the logarithm map, C140, treats the default bound in any format). |
| C147 | proved | `Model/FloatRelAngle.lean`: `so3_relative_angle` with both values of `cos_angle`, operation by operation. Specification: `rotAngle` of the exact relative rotation `U1 U2^T`. `C147_cosine`, `C147_angle` (any machine), `C147_precision` (binary formats with at least 24 bits). `C147_half_turn` (the angles from `pi - 0.02` to `pi`, where the extension of the arccos is used at the other end), `C147_every_pair`, `C147_every_pair_float32`, `C147_self_not_zero`; `C147_rejects` with the cases `C147_rejects_cases` (a point reflection, a scaled matrix). |
| C148 | proved | `Model/FloatCheck.lean`: `_check_valid_rotation_matrix` with `torch.allclose`, operation by operation; the result is whether the warning is emitted. `torch.det` (an LU decomposition in torch) is a function with an absolute error of at most `delta B^3` for entries up to `B`; nothing is proved about its algorithm. The worst case of LU with partial pivoting is about 700 u, so the requirement on `delta` is satisfied by `float64` but not implied for `float32`. Specification: `IsRot`, `R R^T`, `Matrix.det`. `C148_no_false_alarm`, `C148_silent`, `C148_reflection_warns`, `C148_scaled_warns`, `C148_compiling_silent`; `C148_float32` for a determinant that is correctly rounded. |

## 5. Where the code disagrees with the property

The negation is proved with the witness named; the `_partial` theorem says what does hold.

| id | disagreement | theorem |
|---|---|---|
| C10 | a `(B,1)` tensor is broadcast to all joints; a chain without moving joints accepts any width | `C10_fails_one_column`, `C10_no_joints_accepts_anything` |
| C13 | `get_joints(exclude_fixed=False)` still drops fixed joints and drops the root's joint | `C13_fails_fixed_joint`, `C13_fails_root_joint` |
| C21 | nested lists are measured by their outer length; a dict of numbers always raises IndexError | `C21_fails_nested_list`, `C21_number_dict_raises` |
| C24 | a single link raises UnboundLocalError; floating/planar joints raise KeyError | `C24_single_link_fails`, `C24_other_types_fail` |
| C25 | default axis is (0,0,1), URDF says (1,0,0) | `C25_default_axis_fails` |
| C26 | a continuous joint with a `<limit effort velocity>` gets limits (0,0) | `C26_continuous_fails` |
| C28 | SDF roll and yaw exchanged | `Sdf.C28_fails` |
| C29 | the MJCF joint anchor is applied but not undone | `Mjcf.C29_fails` |
| C31 | `inverse` assumes rigidity for plain transforms: wrong after `.scale`, and for `Scale(..).clone()` | `C31_fails_scaled`, `C31_fails_clone` |
| C33 | (outside the property's hypothesis) normals of scaled transforms | `C33_fails_scaled` |
| C34 | a `(3,3)` tensor of three Euler triples is read as one matrix; batched pos with a single rot fails | `C34_three_euler_triples_fails`, `C34_batched_pos_single_rot_fails` |
| C40 | gimbal lock | `C40_gimbal_lock_fails` |
| C42 | vectors shorter than 1e-12 are not normalised | `C42_tiny_input_fails` |
| C43 | `so3_log_map` at a half turn returns zero | `C43_log_half_turn_fails` |
| C45 | the distance is zeroed when all pairs of the batch are close, and only then | `C45_batch_dependent` |
| C46 | NaN for an identical pair next to a distant one; linear branch is not unit | `C46_identical_pair_nan`, `C46_lerp_not_unit` |
| C47 | both functions write into the caller's tensor | `C47_quaternion_from_euler_mutates`, `C47_slerp_mutates` |
| C50 | `converged_pos_any`, `converged_rot_any` are never written | `C50_fails_pos_any`, `C50_fails_witness` |
| C53 | one unlimited revolute joint beside limited ones gets NaN/inf | `C53_fails_unlimited`, `C53_fails_unconverged` |
| C55 | fewer than six joints raise RuntimeError | `C55_fails_few_joints` |
| C57 | `"all"`/`"any"` exchanged with respect to the documentation; ratios differ from 1000 retries on | `C57_fails_all`, `C57_fails_any`, `C57_fails_many_retries` |
| C62 | a batched `(N,R,dof)` tensor is rejected unless R = dof | `C62_fails_batched` |
| C63 | index tensors cached before `to` stay on the old device | `C63_fails` |
| C66 | `jacobian` documents dicts but raises RuntimeError | `C66_fails_jacobian_dict` |
| C67 | builders apply in the opposite of the documented order | `C67_documented_order_fails` |
| C68 | `Translate`/`Scale`/`Rotate` with float64 report float32 | `C68_subclass_dtype_fails` |
| C69 | the documented `(N,P,3,3)` input always raises | `C69_four_dim_fails` |
| C73 | a caller that changes a returned list or tensor changes later answers | `C73_fails_names`, `C73_fails_indices` |
| C75 | `<mimic>` is read and ignored | `C75_fails` |
| C78 | SDF joint `<pose>` is read and ignored | `Sdf.C78_fails` |
| C79 | missing `<inertial>` or `<axis>`, a single link, a joint to `world` and a mesh given by `<uri>` fail to load | `Sdf.C79_no_inertial_fails`, `…no_axis_fails`, `…single_link_fails`, `…world_fails`, `…mesh_uri_fails` |
| C80 | one bound without the other raises TypeError | `Sdf.C80_one_bound_fails` |
| C81 | an unlimited MJCF joint is reported with range (0,0) | `Mjcf.C81_fails` |
| C82 | ball, free and composite joints fail to load | `Mjcf.C82_fails`, `Mjcf.C82_loads_iff` |
| C84 | unnamed bodies and sites overwrite each other | `Mjcf.C84_fails` |
| C92 | URDF: a link gets exactly one visual, the first (or an empty one); a capsule loses shape and size. SDF: mesh scale lost, angles of poses exchanged. MJCF: `geom_type` is MuJoCo's integer code | `Urdf.C92_urdf_fails`, `Sdf.C92_sdf_scale_fails`, `Sdf.C92_sdf_pose_fails`, `Mjcf.C92_mjcf_type_fails` |
| C94 | a tensor of locations on the chain's own device, if not the CPU, raises `RuntimeError`: `Transform3d(pos=locations)` joins it to CPU tensors | `C94_location_tensor_fails` |
| C95 | `Chain(root, device=v)` raises for every tree and every `v` but the CPU (`joint_type_indices` is made on the CPU and indexed with a tensor on `v`); `Chain(root, dtype=float64)` raises when a float32 frame has one of its two offsets; `SerialChain(chain, end)` of a moved chain ignores its dtype and device, so it raises or cannot be used | `C95_device_fails`, `C95_dtype_fails`, `C95_serial_fails` |
| C96 | float64 chains: gaussian configurations are float32 and `solve` raises; so do configurations within float32 limits. float32 chains: float64 targets raise (float32 targets and float64 chains work) | `C96_gaussian_fails`, `C96_limits_fails`, `C96_target_fails` |
| C97 | `t.to(device, copy=True)` with the dtype and device of `t` returns a new object with the same matrix storage; `t.compose()` without arguments too | `C97_to_copy_fails`, `C97_compose_fails` |
| C105 | of several separate trees only the one of the first root joint is loaded; a link with two parents gets two frames of the same name; a joint whose parent is not declared is ignored with everything below it. None raises. | `Urdf.C105_forest_fails`, `Urdf.C105_two_parents_fails`, `Urdf.C105_unknown_parent_fails` |
| C106 | the README (and a comment in `ensure_tensor`) promise zeros for joints left out of a dictionary; the code raises `ValueError` for every chain and dictionary that leaves one out (the docstring of `ensure_tensor`, which C09 follows, asks for all joints) | `C106_missing_joint_fails` |
| C108 | `_FKAnalyticalBackward` saves poses computed from `th.detach()`; differentiating the gradient again (`create_graph=True`) gives a number without any error, and the number lacks the curvature of forward kinematics: for an arm of length 2 the second derivative of the x coordinate at angle 0 is reported as 0 instead of -2. The README asks for `analytical_grad=False` in this case; `forward_kinematics` and `jacobian` have no such parameter. |
| C111 | `RawType.write_xml` moves the children of a `<gazebo>` element out of the robot's own element into the document and drops its text: after writing and reading the text is gone (`C111_gazebo_text_lost`), and a second write has no children any more (`C111_second_write_differs`). Chains are not affected. |
| C112 | Booleans are read with `bool(text)`: an empty `<use_parent_model_frame/>` or `kinematic=""` is False, is written as `False`, and that reads as True (`C112_empty_flag_changes`); `0` and `false` read as True (`C112_flag_text_ignored`). |
| C113 | `Robot.get_chain(root, tip)` on a description whose joints form a cycle never returns (`C113_cycle_runs_forever`); the description itself is accepted by `URDF.from_xml_string`. Not part of the claim, which is about trees. |
| C117 | `_sqrt_positive_part` promises a zero subgradient at zero; the gradient of `clamp` at its bound is passed on and that of `sqrt` divides by zero: infinite, or NaN for a zero loss (`C117_fails_sqrt_positive_part`). Three of the four values `q_abs` in `matrix_to_quaternion` belong to candidates that are not selected and get gradient zero, so a zero component of the quaternion makes the gradients of the three diagonal entries `0/0` = NaN for every loss: no rotation, all rotations about an axis with a zero component, all half turns (`C117_fails_matrix_to_quaternion`, `C117_fails_matrix_to_axis_angle`). A loss on the quaternion of a planar robot, or of one revolute joint, has NaN gradients at every configuration (`C117_fails_revolute_joint`). `axis_angle_to_quaternion` and `quaternion_to_axis_angle` choose by `torch.where` between a series and `sin(x/2)/x`; the branch that is not chosen divides by zero at no rotation and passes NaN on (`C117_fails_quaternion_to_axis_angle`; `C117_fails_axis_angle_to_quaternion` with the derivative of `torch.norm` of current PyTorch, while the older one hides the NaN: `C117_axis_angle_to_quaternion_partial`). `quaternion_angular_distance` sets the distance of close pairs to zero, but the gradient of equal quaternions is NaN (`C117_fails_quaternion_angular_distance`). |
| C122 | For an empty batch forward kinematics and the Jacobian return empty tensors, but the backward pass raises `RuntimeError`: `reshape(-1, B, 3)` of a tensor without entries leaves the size -1 ambiguous when `B = 0` (l.155-158). `reshape(J, B, 3)` with `J` known would work. `C122_fails_empty_batch`; `C122_gradient_partial` for `B > 0`. |
| C125 | `t.translate(0.1, 0, 0)` and `t.scale(…)` of a `float64` transform use the number rounded to `float32`, because `Translate` and `Scale` default to `dtype=torch.float32` and the methods do not pass the dtype of `t`; `Transform3d(matrix=m, pos=[0.1, 0, 0])` likewise. `RotateAxisAngle(angle, dtype=torch.float64)`, whose default is `float64`, passes no dtype to `Rotate` and has a `float32` matrix. `transform_points` converts the matrix to the dtype of the points: for `int64` points the fractions of its entries are cut off, silently. `C125_fails_builders`, `C125_fails_position_list`, `C125_fails_rotate_axis_angle`, `C125_fails_integer_points`. |
| C126 | The loaders build every offset in `float32` (`Transform3d(rot=…, pos=list)` without a dtype, `torch.tensor(rpy, dtype=torch.float32)`), and `chain.to(dtype=torch.float64)` converts the rounded numbers: a link of 0.1 m has length 0.10000000149011612. `C126_fails`. |
| C127 | `quaternion_slerp` multiplies `weight[:, None]` with the quaternions: two quaternions of shape `(4,)` raise IndexError, grids of shape `(A, B, 4)` raise RuntimeError, and for `B = 4` the weight of pair `(a, k)` is used for component `k` of every pair, silently: the midpoint of 1 and a half turn has squared length 5/6. `q2[dot < 0] = -q2[dot < 0]` raises IndexError for one `q2` and several `q1`; with four `q1` and one `q2` of shape `(4,)` it negates single components of `q2`, in the tensor of the caller too. A parameter tensor must have shape `(N,)` if some pair is not nearly parallel and `(N, 1)` if all are. `C127_single_pair_fails`, `C127_grid_fails`, `C127_grid4_wrong`, `C127_one_target_fails`, `C127_one_target4_wrong`, `C127_steps_fail`. |
| C128 | `so3_log_map` of every half turn is 0 (`C128_log_half_turn_fails`, see C43) and raises RuntimeError for an empty batch (`C128_log_empty_fails`). `so3_relative_angle` documents ValueError for incorrect shapes: matrices without batch dimension and batches of different sizes raise RuntimeError (`C128_relative_shape_fails`), matrices of shape `(N, 3, 1)` are accepted (`C128_relative_accepts`). |
| C130 | `matrix_to_euler_angles` at gimbal lock (the middle angle at the end of its range, among them the identity for conventions with a repeated axis): whatever the loss and the convention, backpropagation puts NaN into the four matrix entries of the row of the first and the column of the last axis that the middle angle is not read from. `C130_fails_gimbal_lock`. |
| C131 | `quaternion_slerp` writes into `q2` after `q1 * q2`: backpropagation to `q1` raises RuntimeError unless all pairs are nearly parallel (`C131_fails_slerp_backward`), a leaf `q2` that requires gradients makes the call raise (`C131_fails_slerp_leaf`), and gradients elsewhere that need `q2` are lost even if nothing is negated (`C131_fails_slerp_other`). `sample_perturbations` changes the translations in place after multiplying them with the axis: backpropagation to the axis raises with the default arguments (`C131_fails_perturbation_axis`). `quaternion_from_euler` divides outputs of `unbind` in place: angles that require gradients always raise (`C131_fails_from_euler`), angles that do not lose the gradients that need them (`C131_fails_from_euler_other`). |
| C138 | `_FKAnalyticalBackward.backward` restricts sums to the frames below a joint by a matrix product with a mask of zeros and ones; 0 times an infinity or NaN is NaN. One non-finite joint value, pose or upstream gradient entry makes the gradients of all revolute joints of its row non-finite, also of joints on other branches whose poses are finite, and also if the upstream gradient is zero. `C138_fails`, `C138_spreads`, `C138_joint_spreads`. |
- **C134**: `PseudoInverseIKWithSVD.solve` raises `LinAlgError` for the whole batch if one target position contains NaN (`C134_fails_svd`): the step of these rows is NaN, `q` becomes NaN, and `torch.linalg.svd` rejects the batch in the next evaluation, while the default solver returns (`C134_returns_partial`).

Observed while reading, not stated as properties: `clamp_to_limits` is switched on when any lower limit is finite, whatever
the upper limits; the README's examples with partial dictionaries raise ValueError; README values of shape `(N,1)` in a
dictionary give a three-dimensional tensor; `Frame(children=[…])` never sets `children`; `Chain.to` also changes frames shared
with other chains; the SDF TypeError of C80 is raised in the model when the joint is converted, in the code when
`Chain.__init__` builds its limit tensor; `sample_configs` accepts a chain with one joint and several rows of limits and then returns rows of the wrong width; C59 is stated without line search because the rates of stopped problems depend on the batch.

## 6. Testing the theorems against wrong programs

`seeded/LOG.jsonl` has one line per edited model: the definition, the edit, the claim it breaks, the theorems that no longer
compile, and the theorems that were tightened because they still compiled. Each edit is a realistic bug (swapped operands,
dropped update, wrong boundary, missed case) made in a scratch copy, which is then rebuilt.
