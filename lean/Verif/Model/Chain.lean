import Verif.Model.Frame
import Verif.Model.Dict

/-!
# Model of class `Chain` (`chain.py`)
Line numbers refer to `/repo/src/pytorch_kinematics/chain.py`.

A `(B, m)` joint tensor is a list of `m` columns `Fin B → ℝ`; a `(num_frames, B, 4, 4)` tensor is a
list of `Fin B → M4`, whose `*` is the batched matrix product.  Device and dtype are not modelled here.
-/

namespace PK

/-- `str.strip("\n")`: drop newlines at both ends. -/
def stripNl (s : Name) : Name :=
  ((s.dropWhile (· == '\n')).reverse.dropWhile (· == '\n')).reverse

/-- `sorted(set(names), key=names.index)`: distinct elements by first occurrence. -/
def pyUnique {α : Type} [DecidableEq α] : List α → List α
  | [] => []
  | a :: l => a :: (pyUnique l).filter (· ≠ a)

/-! ## Recursive tree queries, l.382-500 -/

mutual
/-- l.407-414 `_get_joints`; the recursive call does not pass `exclude_fixed` (default `True`). -/
def Frame.getJoints (excludeFixed : Bool) : Frame → List Joint
  | .mk _ _ j cs => (if excludeFixed && j.jtype != .fixed then [j] else []) ++ Frame.getJointsL cs
/-- loop l.412-413 -/
def Frame.getJointsL : List Frame → List Joint
  | [] => []
  | c :: cs => Frame.getJoints true c ++ Frame.getJointsL cs
end

mutual
/-- l.449-456 `_get_joint_parent_frame_names` and l.462-469 `_get_frame_names` (identical bodies). -/
def Frame.getFrameNames (excludeFixed : Bool) : Frame → List Name
  | .mk n _ j cs =>
    (if !(excludeFixed && j.jtype == .fixed) then [n] else []) ++ Frame.getFrameNamesL excludeFixed cs
/-- loop l.467-468 -/
def Frame.getFrameNamesL (excludeFixed : Bool) : List Frame → List Name
  | [] => []
  | c :: cs => Frame.getFrameNames excludeFixed c ++ Frame.getFrameNamesL excludeFixed cs
end

mutual
/-- l.475-480 `_get_links`; l.486-491 `_get_link_names` lists their names. -/
def Frame.getLinks : Frame → List Link
  | .mk _ l _ cs => l :: Frame.getLinksL cs
/-- loop l.478-479 -/
def Frame.getLinksL : List Frame → List Link
  | [] => []
  | c :: cs => Frame.getLinks c ++ Frame.getLinksL cs
end

mutual
/-- l.486-491 `_get_link_names`. -/
def Frame.getLinkNames : Frame → List (Option Name)
  | .mk _ l _ cs => l.name :: Frame.getLinkNamesL cs
/-- loop l.489-490 -/
def Frame.getLinkNamesL : List Frame → List (Option Name)
  | [] => []
  | c :: cs => Frame.getLinkNames c ++ Frame.getLinkNamesL cs
end

mutual
/-- l.382-390 `_find_frame_recursive` -/
def Frame.findFrameRec (name : Name) : Frame → Option Frame
  | .mk _ _ _ cs => Frame.findFrameRecL name cs
/-- loop l.384-390 -/
def Frame.findFrameRecL (name : Name) : List Frame → Option Frame
  | [] => none
  | c :: cs =>
    if c.name = name then some c
    else match Frame.findFrameRec name c with
      | some r => some r
      | none => Frame.findFrameRecL name cs
end

mutual
/-- l.397-405 `_find_link_recursive` -/
def Frame.findLinkRec (name : Option Name) : Frame → Option Link
  | .mk _ _ _ cs => Frame.findLinkRecL name cs
/-- loop l.399-405 -/
def Frame.findLinkRecL (name : Option Name) : List Frame → Option Link
  | [] => none
  | c :: cs =>
    if c.link.name = name then some c.link
    else match Frame.findLinkRec name c with
      | some r => some r
      | none => Frame.findLinkRecL name cs
end

mutual
/-- l.429-437 `_find_joint_recursive` -/
def Frame.findJointRec (name : Option Name) : Frame → Option Joint
  | .mk _ _ _ cs => Frame.findJointRecL name cs
/-- loop l.431-437 -/
def Frame.findJointRecL (name : Option Name) : List Frame → Option Joint
  | [] => none
  | c :: cs =>
    if c.joint.name = name then some c.joint
    else match Frame.findJointRec name c with
      | some r => some r
      | none => Frame.findJointRecL name cs
end

mutual
/-- l.632-644 `_get_joints_and_child_links`: (yielded pairs, returned link list). -/
def Frame.jointsAndChildLinks : Frame → List (Joint × List Link) × List Link
  | .mk _ l j cs =>
    let r := Frame.jointsAndChildLinksL cs
    let mine := l :: r.2
    (r.1 ++ (if j.jtype != .fixed then [(j, mine)] else []), mine)
/-- loop l.637-639 -/
def Frame.jointsAndChildLinksL : List Frame → List (Joint × List Link) × List Link
  | [] => ([], [])
  | c :: cs =>
    let a := Frame.jointsAndChildLinks c
    let b := Frame.jointsAndChildLinksL cs
    (a.1 ++ b.1, a.2 ++ b.2)
end

/-- l.392-395 `find_frame` -/
def Frame.findFrame (root : Frame) (name : Name) : Option Frame :=
  if root.name = name then some root else Frame.findFrameRec name root
/-- l.439-442 `find_link` -/
def Frame.findLink (root : Frame) (name : Option Name) : Option Link :=
  if root.link.name = name then some root.link else Frame.findLinkRec name root
/-- l.444-447 `find_joint` -/
def Frame.findJoint (root : Frame) (name : Option Name) : Option Joint :=
  if root.joint.name = name then some root.joint else Frame.findJointRec name root

/-- l.420-427 `get_joint_parameter_names` -/
def Frame.jointParamNames (root : Frame) (excludeFixed : Bool := true) : List (Option Name) :=
  ((root.getJoints excludeFixed).filter fun j => !(excludeFixed && j.jtype == .fixed)).map Joint.name

/-- l.616-630 `_get_joint_limits` for a selected attribute -/
noncomputable def limitArrays (param : Joint → Option (Fl × Fl)) (js : List Joint) : List Fl × List Fl :=
  (js.map fun j => match param j with | none => Fl.ninf | some v => v.1,
   js.map fun j => match param j with | none => Fl.pinf | some v => v.2)

/-! ## Construction, l.230-348 -/

mutual
/-- number of frames (termination measure only) -/
def Frame.size : Frame → ℕ
  | .mk _ _ _ cs => 1 + Frame.sizeL cs
/-- number of frames in a list of trees -/
def Frame.sizeL : List Frame → ℕ
  | [] => 0
  | c :: cs => Frame.size c + Frame.sizeL cs
end

/-- A queue element `(frame, parent_idx, depth)`, l.254/296. -/
abbrev QItem := Frame × ℤ × ℕ

/-- total size of the queue (termination measure only) -/
def queueSize (q : List QItem) : ℕ := Frame.sizeL (q.map (·.1))

theorem Frame.sizeL_append (a b : List Frame) : Frame.sizeL (a ++ b) = Frame.sizeL a + Frame.sizeL b := by
  induction a with
  | nil => simp [Frame.sizeL]
  | cons c cs ih => simp [Frame.sizeL, ih]; omega

theorem queueSize_step (f : Frame) (p : ℤ) (d idx : ℕ) (q : List QItem) :
    queueSize (q ++ f.children.map fun c => (c, (idx : ℤ), d + 1)) < queueSize ((f, p, d) :: q) := by
  cases f with
  | mk n l j cs =>
    simp only [queueSize, List.map_append, Frame.sizeL_append, List.map_cons, Frame.sizeL, Frame.size,
      Frame.children, List.map_map, Function.comp_def, List.map_id']
    omega

/-- The mutable state of the loop l.253-298. -/
structure BuildState where
  parentsIndices : List (List ℕ) := []
  jointIndices : List ℤ := []
  axes : List V3
  linkOffsets : List (Option M4) := []
  jointOffsets : List (Option M4) := []
  jointTypeIndices : List ℕ := []
  frameToIdx : Dict Name ℕ := []
  idxToFrame : Dict ℕ Name := []
  directParents : List ℤ := []
  frameDepths : List ℕ := []
  idx : ℕ := 0

/-- l.261-298 body of the loop, without the queue operations. `names` is
`self.get_joint_parameter_names()`. `names.index` raises when absent and `parents_indices[p]` when
out of range; neither can happen (see `Verif/Lemmas/Fk.lean`, `Verif/Lemmas/Local.lean`), so the totalised `idxOf`/`getD`
are used. -/
def BuildState.step (names : List (Option Name)) (st : BuildState) (e : QItem) : BuildState :=
  let f := e.1
  let p := e.2.1
  let jnt := names.idxOf f.joint.name
  { parentsIndices := st.parentsIndices ++
      [if p = -1 then [st.idx] else (st.parentsIndices[p.toNat]?).getD [] ++ [st.idx]]
    jointIndices := st.jointIndices ++ [if f.joint.jtype = .fixed then -1 else (jnt : ℤ)]
    axes := if f.joint.jtype = .fixed then st.axes else st.axes.set jnt f.joint.axis
    linkOffsets := st.linkOffsets ++ [f.link.offset]
    jointOffsets := st.jointOffsets ++ [f.joint.offset]
    jointTypeIndices := st.jointTypeIndices ++ [f.joint.jtype.index]
    frameToIdx := st.frameToIdx.set (stripNl f.name) st.idx
    idxToFrame := st.idxToFrame.set st.idx (stripNl f.name)
    directParents := st.directParents ++ [p]
    frameDepths := st.frameDepths ++ [e.2.2]
    idx := st.idx + 1 }

/-- l.260-298 `while len(queue) > 0`. -/
def buildLoop (names : List (Option Name)) (q : List QItem) (st : BuildState) : BuildState :=
  match q with
  | [] => st
  | (f, p, d) :: q =>
    buildLoop names (q ++ f.children.map fun c => (c, (st.idx : ℤ), d + 1)) (st.step names (f, p, d))
termination_by queueSize q
decreasing_by exact queueSize_step f p d _ q

/-- The attributes of a `Chain` that FK, Jacobian and IK use. -/
structure Chain where
  root : Frame
  low : List Fl
  high : List Fl
  nJoints : ℕ
  axes : List V3
  parentsIndices : List (List ℕ)
  jointIndices : List ℤ
  jointTypeIndices : List ℕ
  frameToIdx : Dict Name ℕ
  idxToFrame : Dict ℕ Name
  numFrames : ℕ
  directParentIdx : List ℤ
  bfsLevels : List (List ℕ)
  staticOffsets : List M4
  jointIndicesClamped : List ℕ
  hasRevolute : Bool
  hasPrismatic : Bool
  dofFrameIndices : List ℕ
  /-- rows: DOF, columns: frame -/
  dofAncestorMask : List (List ℝ)
  dofIsRevolute : List Bool

/-- l.308-313: frame indices grouped by depth. -/
def bfsLevelsOf (depths : List ℕ) : List (List ℕ) :=
  (List.range (depths.foldl max 0 + 1)).map fun d =>
    (List.range depths.length).filter fun i => depths[i]? == some d

/-- l.332-336 -/
def dofFrameIndicesOf (nJoints numFrames : ℕ) (jointIndices : List ℤ) : List ℕ :=
  (List.range numFrames).foldl (fun acc fi =>
    match jointIndices[fi]? with
    | some ji => if 0 ≤ ji then acc.set ji.toNat fi else acc
    | none => acc) (List.replicate nJoints 0)

/-- l.230-348 `Chain.__init__`. -/
noncomputable def Chain.init (root : Frame) : Chain :=
  let names := root.jointParamNames
  let lims := limitArrays Joint.limits (root.getJoints true)
  let n := names.length
  let st := buildLoop names [(root, -1, 0)] { axes := List.replicate n ![0, 0, 0] }
  let dfi := dofFrameIndicesOf n st.idx st.jointIndices
  { root := root
    low := lims.1
    high := lims.2
    nJoints := n
    axes := st.axes
    parentsIndices := st.parentsIndices
    jointIndices := st.jointIndices
    jointTypeIndices := st.jointTypeIndices
    frameToIdx := st.frameToIdx
    idxToFrame := st.idxToFrame
    numFrames := st.idx
    directParentIdx := st.directParents
    bfsLevels := bfsLevelsOf st.frameDepths
    staticOffsets := List.zipWith (fun lo jo => lo.getD 1 * jo.getD 1) st.linkOffsets st.jointOffsets
    jointIndicesClamped := st.jointIndices.map fun ji => (max ji 0).toNat
    hasRevolute := st.jointTypeIndices.any (· == 1)
    hasPrismatic := st.jointTypeIndices.any (· == 2)
    dofFrameIndices := dfi
    dofAncestorMask := dfi.map fun fj =>
      st.parentsIndices.map fun anc => if fj ∈ anc then 1 else 0
    dofIsRevolute := dfi.map fun fj => st.jointTypeIndices[fj]? == some 1 }

/-! ## Forward kinematics, l.13-93 and l.507-605 -/

/-- Python index `i` into a dimension of size `n` (negative indices count from the end). -/
def pyIndex (n : ℕ) (i : ℤ) : Option ℕ :=
  if 0 ≤ i then (if i < n then some i.toNat else none)
  else if 0 ≤ n + i then some (n + i).toNat else none

/-- Broadcasting of a `(B, m)` joint tensor against `(B, n)` axis components, written into a
`(B, n, …)` buffer (rotation_conversions.py l.464-472, l.487-491): `m = n`, or `m = 1`. -/
def broadcastCols {α : Type} (n : ℕ) (th : List α) : Except Err (List α) :=
  if th.length = n then .ok th
  else match th with
    | [c] => .ok (List.replicate n c)
    | _ => .error .runtimeError

/-- l.55-61: one transform per joint, then gathered per frame with `[:, jidx]`. -/
def perFrame {B : ℕ} (f : V3 → ℝ → M4) (axes : List V3) (jidx : List ℕ) (th : List (Fin B → ℝ)) :
    Except Err (List (Fin B → M4)) := do
  let cols ← broadcastCols axes.length th
  let mats : List (Fin B → M4) := List.zipWith (fun a col => fun b => f a (col b)) axes cols
  jidx.mapM fun i => match mats[i]? with
    | some m => .ok m
    | none => .error .indexError

/-- A variable that is only assigned under a condition. -/
def bound {α : Type} : Option α → Except Err α
  | some a => .ok a
  | none => .error .unboundLocal

/-- l.89-91 one level: the right-hand side is read before anything is written. -/
def levelStep {M : Type} [Mul M] (n : ℕ) (parents : List ℤ) (locals : List M)
    (T : ℕ → Option M) (lvl : List ℕ) : ℕ → Option M := fun i =>
  if i ∈ lvl then do
    let p ← parents[i]?
    let pi ← pyIndex n p
    let a ← T pi
    let l ← locals[i]?
    some (a * l)
  else T i

/-- l.84-93 accumulation along the BFS levels; `none` marks a never-written entry. -/
def fkAccum {M : Type} [Mul M] (n : ℕ) (parents : List ℤ) (levels : List (List ℕ)) (locals : List M) :
    Except Err (List M) :=
  match levels with
  | [] => .error .indexError
  | l0 :: ls =>
    let T0 : ℕ → Option M := fun i => if i ∈ l0 then locals[i]? else none
    let T := ls.foldl (levelStep n parents locals) T0
    (List.range n).mapM fun i => match T i with
      | some m => .ok m
      | none => .error .uninitialised

/-- l.13-82 the per-frame local transforms. -/
noncomputable def Chain.localTransforms (c : Chain) {B : ℕ} (th : List (Fin B → ℝ)) :
    Except Err (List (Fin B → M4)) := do
  let rev ← if 0 < th.length ∧ c.hasRevolute = true
    then some <$> perFrame axisAndAngleToMatrix44 c.axes c.jointIndicesClamped th else pure none
  let pris ← if 0 < th.length ∧ c.hasPrismatic = true
    then some <$> perFrame axisAndDToPrisMatrix c.axes c.jointIndicesClamped th else pure none
  let eye : List (Fin B → M4) := List.replicate c.numFrames 1
  let jt ←
    if c.hasRevolute && !c.hasPrismatic then do
      let r ← bound rev
      pure (List.zipWith (fun t (re : (Fin B → M4) × (Fin B → M4)) => if t = 1 then re.1 else re.2)
        c.jointTypeIndices (List.zip r eye))
    else if c.hasPrismatic && !c.hasRevolute then do
      let r ← bound pris
      pure (List.zipWith (fun t (re : (Fin B → M4) × (Fin B → M4)) => if t = 2 then re.1 else re.2)
        c.jointTypeIndices (List.zip r eye))
    else if c.hasRevolute && c.hasPrismatic then do
      let r ← bound rev
      let s ← bound pris
      let j1 := List.zipWith (fun t (re : (Fin B → M4) × (Fin B → M4)) => if t = 1 then re.1 else re.2)
        c.jointTypeIndices (List.zip r eye)
      pure (List.zipWith (fun t (re : (Fin B → M4) × (Fin B → M4)) => if t = 2 then re.1 else re.2)
        c.jointTypeIndices (List.zip s j1))
    else pure eye
  pure (List.zipWith (fun o j => fun b => o * j b) c.staticOffsets jt)

/-- l.13-93 `_fk_impl`, l.507-540 `forward_kinematics_tensor` (both branches return the same value;
the attached gradient is in `Verif/Model/Backward.lean`). -/
noncomputable def Chain.fkTensor (c : Chain) {B : ℕ} (th : List (Fin B → ℝ)) :
    Except Err (List (Fin B → M4)) := do
  let locals ← c.localTransforms th
  fkAccum c.numFrames c.directParentIdx c.bfsLevels locals

/-- l.471-473 `get_frame_names` -/
def Chain.getFrameNames (c : Chain) (excludeFixed : Bool := true) : List Name :=
  pyUnique (c.root.getFrameNames excludeFixed)
/-- l.458-460 `get_joint_parent_frame_names` -/
def Chain.getJointParentFrameNames (c : Chain) (excludeFixed : Bool := true) : List Name :=
  pyUnique (c.root.getFrameNames excludeFixed)
/-- l.493-495 `get_link_names` -/
def Chain.getLinkNames (c : Chain) : List (Option Name) := pyUnique c.root.getLinkNames
/-- l.482-484 `get_links` -/
def Chain.getLinks (c : Chain) : List Link := c.root.getLinks
/-- l.416-418 `get_joints` -/
def Chain.getJoints (c : Chain) (excludeFixed : Bool := true) : List Joint := c.root.getJoints excludeFixed
/-- l.420-427 -/
def Chain.getJointParameterNames (c : Chain) (excludeFixed : Bool := true) : List (Option Name) :=
  c.root.jointParamNames excludeFixed
/-- l.646-647 -/
def Chain.getJointsAndChildLinks (c : Chain) : List (Joint × List Link) := c.root.jointsAndChildLinks.1
/-- l.607-614 -/
noncomputable def Chain.getJointLimits (c : Chain) := limitArrays Joint.limits (c.root.getJoints true)
noncomputable def Chain.getJointVelocityLimits (c : Chain) := limitArrays Joint.velocityLimits (c.root.getJoints true)
noncomputable def Chain.getJointEffortLimits (c : Chain) := limitArrays Joint.effortLimits (c.root.getJoints true)

/-- `d[k]` -/
def Dict.item {K V : Type} [DecidableEq K] (d : Dict K V) (k : K) : Except Err V :=
  match d.get? k with
  | some v => .ok v
  | none => .error .keyError

/-- l.497-499 `get_frame_indices` (values; caching and device are in `Verif/Model/Cache.lean`). -/
def Chain.getFrameIndices (c : Chain) (names : List Name) : Except Err (List ℕ) :=
  names.mapM fun n => c.frameToIdx.item n

/-- l.591-593 `get_all_frame_indices` -/
def Chain.getAllFrameIndices (c : Chain) : Except Err (List ℕ) :=
  c.getFrameIndices (c.getFrameNames false)

/-- l.542-564 `forward_kinematics` for `th` already a `(B, m)` tensor. -/
noncomputable def Chain.forwardKinematics (c : Chain) {B : ℕ} (th : List (Fin B → ℝ))
    (frameIndices : Option (List ℕ) := none) : Except Err (Dict Name (Fin B → M4)) := do
  let fis ← match frameIndices with
    | none => c.getAllFrameIndices
    | some l => .ok l
  let all ← c.fkTensor th
  fis.foldlM (fun d fi => do
    let name ← c.idxToFrame.item fi
    match all[fi]? with
    | some m => .ok (d.set name m)
    | none => .error .indexError) []

/-- l.575-588 `ensure_tensor` on a dict of equally shaped `(B,)` values (`none` = NaN; a scalar value is
`B = 1`, as `atleast_2d` makes it). -/
noncomputable def Chain.ensureTensorDict (c : Chain) {B : ℕ} (d : Dict (Option Name) (Fin B → Option ℝ)) :
    Except Err (List (Fin B → ℝ)) := by
  classical
  exact do
  let _ ← match d with | [] => Except.error Err.indexError | _ => .ok ()
  let names := c.getJointParameterNames
  let th0 : List (Fin B → Option ℝ) := List.replicate c.nJoints fun _ => none
  let th ← d.foldlM (fun th kv =>
    if kv.1 ∈ names then Except.ok (th.set (names.idxOf kv.1) kv.2) else .error Err.valueError) th0
  if ∃ col ∈ th, ∃ b, col b = none then .error Err.valueError
  else .ok (th.map fun col b => (col b).getD 0)

/-- l.542-564 with dictionary input. -/
noncomputable def Chain.forwardKinematicsDict (c : Chain) {B : ℕ} (d : Dict (Option Name) (Fin B → Option ℝ))
    (frameIndices : Option (List ℕ) := none) : Except Err (Dict Name (Fin B → M4)) := do
  let fis ← match frameIndices with
    | none => c.getAllFrameIndices
    | some l => .ok l
  let th ← c.ensureTensorDict d
  c.forwardKinematics th (some fis)

/-- Broadcast of two last dimensions. -/
def broadcast2 {α β : Type} (a : List α) (b : List β) : Except Err (List (α × β)) :=
  if a.length = b.length then .ok (List.zip a b)
  else match a, b with
    | [x], b => .ok (b.map fun y => (x, y))
    | a, [y] => .ok (a.map fun x => (x, y))
    | _, _ => .error .runtimeError

/-- l.595-605 `clamp` for one row of a joint tensor. -/
noncomputable def Chain.clamp (c : Chain) (th : List Fl) : Except Err (List Fl) := do
  let z ← broadcast2 th (List.zip c.low c.high)
  pure (z.map fun x => Fl.clamp x.1 x.2.1 x.2.2)

end PK
