import Verif.Lemmas.Loader
import Verif.Lemmas.Xml
import Verif.Props.Fk
import Verif.Props.Euler
import Verif.Props.Transform3d
import Verif.Spec.Urdf

/-!
# Properties of the URDF loader: C22 – C26
-/

namespace PK
open Spec Matrix Urdf

/-! ## conversion of one element -/

theorem withRot_pos (R : M3) (p : V3) : withRot R (withPos 1 p) = mkHom R p := by
  apply m4_ext; intro i j
  fin_cases i <;> fin_cases j <;> simp [withRot, withPos, mkHom]

theorem T3_init_pos_rot (p : V3) (R : M3) (r : RotArg) (hr : r.toMats = ([R], false)) (d : DType) (dev : Device) :
    T3.init (.default 1) (some (.single p)) (some r) d dev = .ok ⟨.plain, [mkHom R p], d, dev, d, dev⟩ := by
  simp only [T3.init, initMatrix, ok_bind, setPos, catLast, setRot, hr, repeatTo, List.replicate_one]
  simp only [List.length_singleton, if_true, ok_bind, List.zipWith_cons_cons, List.zipWith_nil_left, withRot_pos]
  rfl

/-- C23: the conversion of an `<origin>`: fixed-axis roll, pitch, yaw. -/
theorem C23_origin (o : Option Pose) : convertTransform o = .ok (originT o) := by
  cases o with
  | none => rfl
  | some p =>
    obtain ⟨q, e', h1, _, h3⟩ := C41_quaternion_from_euler false .x .y .z (by decide) (by decide) p.rpy
    have h1 : quaternionFromEuler p.rpy n!"sxyz" = .ok (q, e') := h1
    simp only [convertTransform, h1, ok_bind]
    rw [T3_init_pos_rot p.xyz _ (.quat q) rfl, ok_bind, h3]
    rfl

/-- what the loader keeps of the visuals of a link: one entry, from the first visual -/
noncomputable def keptVisual : Option Vis → Visual
  | none => ⟨none, none, .none⟩
  | some v => ⟨some (originT v.origin), v.geometry.gType, v.geometry.gParam⟩

theorem convertVisual_ok (v : Option Vis) : convertVisual v = .ok (keptVisual v) := by
  cases v with
  | none => rfl
  | some v => simp only [convertVisual, C23_origin, ok_bind]; rfl

theorem convertLink_ok (l : Lnk) : ∃ w, convertLink l = .ok w ∧ w.name = some l.name ∧
    w.offset = some (originT l.origin) ∧ w.visuals = [keptVisual l.visuals.head?] :=
  ⟨_, by simp only [convertLink, C23_origin, ok_bind, convertVisual_ok]; rfl, rfl, rfl, rfl⟩

theorem jointTypeMap_ok {t : Name} {k : JType} (h : urdfKind t = some k) : jointTypeMap t = .ok k := by
  unfold urdfKind at h
  split at h
  all_goals first | (cases h; rfl) | cases h

theorem jointTypeMap_error {t : Name} (h : urdfKind t = none) : jointTypeMap t = .error .keyError := by
  unfold jointTypeMap
  split
  · next e => subst e; simp [urdfKind] at h
  · split
    · next e => subst e; simp [urdfKind] at h
    · split
      · next e => subst e; simp [urdfKind] at h
      · split
        · next e => subst e; simp [urdfKind] at h
        · rfl

theorem linkMap_get (r : Robot) (hnd : (r.links.map Lnk.name).Nodup) (l : Lnk) (hl : l ∈ r.links) :
    r.linkMap.get? l.name = some l := by
  unfold Robot.linkMap
  exact get?_foldl_set r.links Lnk.name (fun l => l)
    (fun a ha b hb e => List.inj_on_of_nodup_map hnd ha hb e) hl

theorem axis_scaled (a : V3) (ha : a ≠ 0) : IsUnitV (normalizeAxis a) ∧ ∃ c : ℝ, 0 < c ∧ normalizeAxis a = c • a := by
  have hn : norm3 a ≠ 0 := fun h0 => ha (norm3_eq_zero.1 h0)
  have hpos : 0 < norm3 a := lt_of_le_of_ne (Real.sqrt_nonneg _) (Ne.symm hn)
  refine ⟨?_, 1 / norm3 a, by positivity, ?_⟩
  · rw [isUnitV_iff_dot]; exact dot_unit_of_norm hn
  · funext i; simp [normalizeAxis, div_eq_inv_mul]

theorem convertJoint_ok (r : Robot) (hnd : (r.links.map Lnk.name).Nodup) (j : Jnt)
    (hc : j.child ∈ r.links.map Lnk.name) (hk : urdfKind j.type ≠ none) :
    ∃ w : Joint × Link, convertJoint r.linkMap j = .ok w ∧ Declared j w.1 ∧ w.2.name = some j.child ∧
      ∀ l ∈ r.links, l.name = j.child →
        w.2.offset = some (originT l.origin) ∧ w.2.visuals = [keptVisual l.visuals.head?] := by
  obtain ⟨k, hk⟩ := Option.ne_none_iff_exists'.1 hk
  obtain ⟨l, hl, hln⟩ := List.mem_map.1 hc
  obtain ⟨w, h1, h2, h3⟩ := convertLink_ok l
  have hg : r.linkMap.get? j.child = some l := hln ▸ linkMap_get r hnd l hl
  refine ⟨(_, w), by simp only [convertJoint, C23_origin, ok_bind, jointTypeMap_ok hk, hg, h1]; rfl, ?_, ?_, ?_⟩
  · refine ⟨rfl, hk, rfl, ?_, ?_, rfl, rfl, rfl⟩
    · intro a ha h0
      simp only [Joint.init, ha]
      exact (axis_scaled a h0).2
    · intro h0
      cases ha : j.axis with
      | none => simp [Joint.init, normalizeAxis, IsUnitV, norm3, dot]
      | some a => simp only [Joint.init]; exact (axis_scaled a (h0 a ha)).1
  · rw [h2, hln]
  · intro l' hl' e
    have : l' = l := List.inj_on_of_nodup_map hnd hl' hl (by rw [e, hln])
    rw [this]; exact h3

/-- What loading a tree means: one frame per link, parents and order as declared, declared joints. -/
structure Loaded (r : Robot) (root : Name) (f : Frame) : Prop where
  /-- the root frame is the root link; it does not move -/
  root_name : f.name = root
  root_fixed : f.joint.jtype = .fixed ∧ f.joint.offset = none
  /-- exactly one frame per link -/
  frames : ((preorder f).map Frame.name).Perm (r.links.map Lnk.name)
  /-- the children of a frame are the children of its link, in document order -/
  children : ∀ g ∈ preorder f,
    g.children.map Frame.name = (r.joints.filter fun j => decide (j.parent = g.name)).map Jnt.child
  /-- each joint of the description is the joint of its child's frame, below its parent's frame -/
  joints : ∀ j ∈ r.joints, ∃ p ∈ preorder f, ∃ g ∈ p.children, p.name = j.parent ∧ g.name = j.child ∧
    Declared j g.joint
  /-- each frame carries its link -/
  links : ∀ g ∈ preorder f, ∃ l ∈ r.links, l.name = g.name ∧ g.link.name = some l.name ∧
    g.link.offset = some (originT l.origin) ∧ g.link.visuals = [keptVisual l.visuals.head?]
  /-- no joint besides the declared ones -/
  only : ∀ g ∈ preorder f, g = f ∨ ∃ j ∈ r.joints, g.name = j.child ∧ Declared j g.joint

theorem urdf_tree_aux (r : Robot) (root : Name) (h : UrdfTree r root) (hne : r.joints ≠ [])
    (hk : ∀ j ∈ r.joints, urdfKind j.type ≠ none) (fuel : ℕ) (hf : r.links.length ≤ fuel) :
    ∃ f, buildRoot fuel r = .ok f ∧ Loaded r root f ∧ ∀ j ∈ r.joints, ∃ w, convertJoint r.linkMap j = .ok w ∧
      ∃ p ∈ preorder f, ∃ g ∈ p.children, p.name = j.parent ∧ g.name = j.child ∧ g.joint = w.1 := by
  have hc : ∀ j : Jnt, ∃ w : Joint × Link, j ∈ r.joints → convertJoint r.linkMap j = .ok w ∧ Declared j w.1 ∧
      w.2.name = some j.child ∧ ∀ l ∈ r.links, l.name = j.child →
        w.2.offset = some (originT l.origin) ∧ w.2.visuals = [keptVisual l.visuals.head?] := by
    intro j
    by_cases hj : j ∈ r.joints
    · obtain ⟨w, hw⟩ := convertJoint_ok r h.links_nodup j (h.child_mem j hj) (hk j hj)
      exact ⟨w, fun _ => hw⟩
    · exact ⟨(Joint.init, {}), fun h => absurd h hj⟩
  choose mk hmk using hc
  obtain ⟨lr, hlr, hlrn⟩ := List.mem_map.1 h.root_mem
  obtain ⟨w, hw1, hw2, hw3⟩ := convertLink_ok lr
  have hrec := buildRecurse_ok h (mkE := convertJoint r.linkMap) (mk := mk) (fun j hj => (hmk j hj).1) fuel root 0
    .here (by simpa using hf)
  have hg : r.linkMap.get? root = some lr := hlrn ▸ linkMap_get r h.links_nodup lr hlr
  refine ⟨Frame.mk root w Joint.init (pureBuild Jnt.parent Jnt.child mk r.joints fuel root), ?_, ?_, ?_⟩
  · simp only [buildRoot, rootName_tree h hne, ok_bind, hg, hw1, hlrn, hrec]
    rfl
  · obtain ⟨h1, h2, h3, h4⟩ := pureBuild_tree h mk fuel (by simpa using hf) w Joint.init _ rfl
    refine ⟨rfl, ⟨rfl, rfl⟩, h1, h2, ?_, ?_, ?_⟩
    · intro j hj
      obtain ⟨p, hp, g, hg, e1, e2, e3, e4⟩ := h3 j hj
      exact ⟨p, hp, g, hg, e1, e2, e3 ▸ (hmk j hj).2.1⟩
    · intro g hg
      rcases h4 g hg with rfl | ⟨j, hj, e1, e2, e3⟩
      · exact ⟨lr, hlr, hlrn, hw2, hw3⟩
      · obtain ⟨l, hl, hln⟩ := List.mem_map.1 (h.child_mem j hj)
        refine ⟨l, hl, by rw [hln, e1], ?_, ?_⟩
        · rw [e3, (hmk j hj).2.2.1, hln]
        · rw [e3]; exact (hmk j hj).2.2.2 l hl hln
    · intro g hg
      rcases h4 g hg with rfl | ⟨j, hj, e1, e2, e3⟩
      · exact Or.inl rfl
      · exact Or.inr ⟨j, hj, e1, e2 ▸ (hmk j hj).2.1⟩
  · intro j hj
    obtain ⟨_, _, h3, _⟩ := pureBuild_tree h mk fuel (by simpa using hf) w Joint.init _ rfl
    obtain ⟨p, hp, g, hg, e1, e2, e3, e4⟩ := h3 j hj
    exact ⟨mk j, (hmk j hj).1, p, hp, g, hg, e1, e2, e3⟩

/-- C22: every description that is a tree with at least one joint, and whose joints are revolute,
continuous, prismatic or fixed, loads to exactly the declared tree, in any order of links and joints.
`fuel` is the recursion depth Python allows. -/
theorem C22_urdf_tree (r : Robot) (root : Name) (h : UrdfTree r root) (hne : r.joints ≠ [])
    (hk : ∀ j ∈ r.joints, urdfKind j.type ≠ none) (fuel : ℕ) (hf : r.links.length ≤ fuel) :
    ∃ f, buildRoot fuel r = .ok f ∧ Loaded r root f :=
  let ⟨f, h1, h2, _⟩ := urdf_tree_aux r root h hne hk fuel hf
  ⟨f, h1, h2⟩

/-- Names a tree needs to be usable: distinct joint names, link names not beginning or ending with a
newline (the constructor strips those). -/
structure GoodNames (r : Robot) : Prop where
  joints : (r.joints.map Jnt.name).Nodup
  links : ∀ l ∈ r.links, l.name.head? ≠ some '\n' ∧ l.name.getLast? ≠ some '\n'

/-- C22: the loaded tree satisfies the hypotheses of the forward kinematics theorems. -/
theorem C22_usable (r : Robot) (root : Name) (f : Frame) (h : UrdfTree r root) (hl : Loaded r root f)
    (hn : GoodNames r) (hax : ∀ j ∈ r.joints, ∀ a, j.axis = some a → a ≠ 0) : WF f ∧ RigidTree f := by
  have hnames : ((preorder f).map Frame.name).Nodup := hl.frames.nodup_iff.2 h.links_nodup
  have hmov : ∀ g ∈ preorder f, Moving g.joint → ∃ j ∈ r.joints, g.name = j.child ∧ Declared j g.joint := by
    intro g hg hm
    rcases hl.only g hg with rfl | h'
    · exact absurd hl.root_fixed.1 hm
    · exact h'
  have hrig : ∀ o : Option Pose, IsRigid (originT o) := by
    intro o
    cases o with
    | none => exact isRigid_one
    | some p =>
      refine isRigid_mkHom ?_ _
      have hu : ∀ a : XYZ, ∀ t, IsRot (elem a t) := fun a t => isRot_rotAbout (by cases a <;> simp [IsUnitV, XYZ.vec]) t
      exact ((hu _ _).mul (hu _ _)).mul (hu _ _)
  refine ⟨⟨hnames, ?_, ?_⟩, ⟨?_, ?_, ?_⟩⟩
  · intro g hg
    obtain ⟨l, hl', e, _⟩ := hl.links g hg
    exact e ▸ hn.links l hl'
  · have : movingJoints f = ((preorder f).filter fun g => decide (Moving g.joint)).map Frame.joint := by
      unfold movingJoints; rw [List.filter_map]; rfl
    rw [this, List.map_map]
    refine List.Nodup.map_on ?_ ((List.Nodup.of_map _ hnames).filter _)
    intro a ha b hb e
    obtain ⟨ha, ma⟩ := List.mem_filter.1 ha
    obtain ⟨hb, mb⟩ := List.mem_filter.1 hb
    obtain ⟨ja, hja, ea, da⟩ := hmov a ha (by simpa using ma)
    obtain ⟨jb, hjb, eb, db⟩ := hmov b hb (by simpa using mb)
    have e' : some ja.name = some jb.name := by rw [← da.name, ← db.name]; exact e
    have := List.inj_on_of_nodup_map hn.joints hja hjb (by simpa using e')
    subst this
    exact List.inj_on_of_nodup_map hnames ha hb (by rw [ea, eb])
  · intro g hg o ho
    obtain ⟨l, _, _, _, e, _⟩ := hl.links g hg
    rw [e] at ho
    cases ho; exact hrig _
  · intro g hg o ho
    rcases hl.only g hg with rfl | ⟨j, _, _, d⟩
    · rw [hl.root_fixed.2] at ho; cases ho
    · rw [d.offset] at ho; cases ho; exact hrig _
  · intro g hg hm
    obtain ⟨j, hj, _, d⟩ := hmov g hg hm
    exact d.unit (hax j hj)

/-- C22: the joint parameters are the declared moving joints, each once. -/
theorem C22_joint_names (r : Robot) (root : Name) (f : Frame) (hl : Loaded r root f) (hw : WF f)
    (hj : (r.joints.map Jnt.name).Nodup) :
    ((Chain.init f).getJointParameterNames).Perm
      ((r.joints.filter fun j => decide (urdfKind j.type ≠ some .fixed)).map fun j => some j.name) := by
  have e : (Chain.init f).getJointParameterNames = (movingJoints f).map Joint.name := jointParamNames_eq f
  have hj' : (r.joints.map fun j => some j.name).Nodup := by
    have := hj.map (f := some) fun a b => Option.some.inj
    rwa [List.map_map] at this
  rw [e, List.perm_ext_iff_of_nodup hw.joints_nodup ((List.filter_sublist.map _).nodup hj')]
  intro x
  constructor
  · intro hx
    obtain ⟨q, hq, rfl⟩ := List.mem_map.1 hx
    obtain ⟨mq, g, hg, rfl⟩ := mem_movingJoints.1 hq
    rcases hl.only g hg with rfl | ⟨j, hj, e, d⟩
    · exact absurd hl.root_fixed.1 mq
    · refine List.mem_map.2 ⟨j, List.mem_filter.2 ⟨hj, decide_eq_true ?_⟩, d.name.symm⟩
      rw [d.kind]; intro h; exact mq (Option.some.inj h)
  · intro hx
    obtain ⟨j, hj, rfl⟩ := List.mem_map.1 hx
    obtain ⟨hj, tj⟩ := List.mem_filter.1 hj
    obtain ⟨p, hp, g, hg, _, _, d⟩ := hl.joints j hj
    refine List.mem_map.2 ⟨g.joint, mem_movingJoints.2 ⟨?_, g, preorder_children hp hg, rfl⟩, d.name⟩
    intro hf
    exact of_decide_eq_true tj (by rw [d.kind, hf])

theorem motion_zero (j : Joint) : motion j 0 = 1 := by
  unfold motion
  split
  · rw [← axisAndAngleToMatrix33_eq_rotAbout, axisAndAngle_zero, mkHom_one]
  · rw [zero_smul, mkHom_one]
  · rfl

theorem path_snoc {root p g : Frame} (hp : p ∈ preorder root) (hg : g ∈ p.children) :
    ∃ l, IsPath root l ∧ l.getLast? = some p ∧ IsPath root (l ++ [g]) := by
  obtain ⟨l, h1, h2⟩ := exists_path hp
  obtain ⟨l', rfl⟩ := List.getLast?_eq_some_iff.1 h2
  exact ⟨_, h1, h2, .snoc l' p g h1 hg⟩

/-- C23: in forward kinematics the pose of a joint's child link in its parent link is the joint's
origin followed by the joint's motion.  (URDF links have no origin of their own.) -/
theorem C23_child_pose (r : Robot) (root : Name) (f : Frame) (h : UrdfTree r root) (hl : Loaded r root f)
    (hw : WF f) (hlo : ∀ l ∈ r.links, l.origin = none) {B : ℕ} (th : List (Fin B → ℝ))
    (hth : th.length = (movingJoints f).length) :
    ∃ d, (Chain.init f).forwardKinematics th = .ok d ∧ ∀ j ∈ r.joints, ∃ Tp Tc q,
      d.get? j.parent = some Tp ∧ d.get? j.child = some Tc ∧ Declared j q ∧
      (∀ b, Tc b = Tp b * (originT j.origin * motion q (colVal f th b q))) ∧
      ∀ b, (q.jtype = .fixed ∨ colVal f th b q = 0) → Tc b = Tp b * originT j.origin := by
  obtain ⟨d, h1, -, h3⟩ := C01_fk_is_path_product f hw th hth
  refine ⟨d, h1, fun j hj => ?_⟩
  obtain ⟨p, hp, g, hg, e1, e2, dj⟩ := hl.joints j hj
  obtain ⟨l, l1, l2, l3⟩ := path_snoc hp hg
  obtain ⟨Tp, a1, a2⟩ := h3 l p l1 l2
  obtain ⟨Tc, b1, b2⟩ := h3 (l ++ [g]) g l3 (by simp)
  have key : ∀ b, Tc b = Tp b * (originT j.origin * motion g.joint (colVal f th b g.joint)) := by
    intro b
    rw [a2, b2]
    unfold pathT
    rw [List.map_append, List.prod_append]
    congr 1
    obtain ⟨lk, hlk, _, _, ho, _⟩ := hl.links g (preorder_children hp hg)
    simp [localT, ho, hlo lk hlk, dj.offset, originT]
  refine ⟨Tp, Tc, g.joint, e1 ▸ a1, e2 ▸ b1, dj, key, fun b hb => ?_⟩
  rw [key b]
  rcases hb with hb | hb
  · simp [motion, hb]
  · rw [hb, motion_zero, Matrix.mul_one]

/-! ## an example description -/

/-- A two-link arm with a side branch; the joints are listed from the tip to the base. -/
noncomputable def exRobot : Robot where
  links := [⟨n!"tip", none, [], [], none⟩, ⟨n!"base", none, [], [], none⟩, ⟨n!"arm", none, [], [], none⟩, ⟨n!"cam", none, [], [], none⟩]
  joints := [
    ⟨n!"j2", n!"prismatic", n!"arm", n!"tip", some ![0, 2, 0], some ⟨![0, 0, 1], ![0, 0, 0]⟩,
      some ⟨.fin 5, .fin 1, .fin (-1), .fin 1⟩, none, none, none, none⟩,
    ⟨n!"jc", n!"fixed", n!"base", n!"cam", none, none, none, none, none, none, none⟩,
    ⟨n!"j1", n!"continuous", n!"base", n!"arm", some ![0, 0, 1], some ⟨![1, 2, 3], ![1, 2, 3]⟩, none, none, none, none, none⟩]

theorem exRobot_tree : UrdfTree exRobot n!"base" := by
  have r0 : Reach Jnt.parent Jnt.child exRobot.joints n!"base" 0 n!"base" := .here
  have r1 : Reach Jnt.parent Jnt.child exRobot.joints n!"base" 1 n!"arm" :=
    .step 0 exRobot.joints[2] (by simp [exRobot]) r0
  have r2 : Reach Jnt.parent Jnt.child exRobot.joints n!"base" 2 n!"tip" :=
    .step 1 exRobot.joints[0] (by simp [exRobot]) r1
  have r3 : Reach Jnt.parent Jnt.child exRobot.joints n!"base" 1 n!"cam" :=
    .step 0 exRobot.joints[1] (by simp [exRobot]) r0
  refine ⟨by simp [exRobot], by simp [exRobot], by simp [exRobot], by simp [exRobot], by simp [exRobot],
    by simp [exRobot], ?_⟩
  intro l hl
  simp only [exRobot, List.map_cons, List.map_nil, List.mem_cons, List.not_mem_nil, or_false] at hl
  rcases hl with rfl | rfl | rfl | rfl
  exacts [⟨_, r2⟩, ⟨_, r0⟩, ⟨_, r1⟩, ⟨_, r3⟩]

example : ∃ f, buildRoot 900 exRobot = .ok f ∧ Loaded exRobot n!"base" f ∧ WF f ∧ RigidTree f := by
  obtain ⟨f, h1, h2⟩ := C22_urdf_tree exRobot n!"base" exRobot_tree (by simp [exRobot])
    (by simp [exRobot, urdfKind]) 900 (by simp [exRobot])
  refine ⟨f, h1, h2, C22_usable exRobot _ f exRobot_tree h2 ⟨by simp [exRobot], by simp [exRobot]⟩ ?_⟩
  simp only [exRobot, List.mem_cons, List.not_mem_nil, or_false]
  rintro j (rfl | rfl | rfl) a ha
  · cases ha; intro h0; simpa using congrFun h0 1
  · cases ha
  · cases ha; intro h0; simpa using congrFun h0 2

/-! ## documents -/

/-- C22: the same for the document: a written description (any number syntax `num`, any printer `sh`
that the syntax reads back) loads to a chain over the declared tree. -/
theorem C22_document (num : NumParser) (sh : Fl → Name) (r : Robot) (root : Name) (h : UrdfTree r root)
    (hne : r.joints ≠ []) (hk : ∀ j ∈ r.joints, urdfKind j.type ≠ none)
    (hw : RobotWritten num sh r)
    (fuel : ℕ) (hf : r.links.length ≤ fuel) :
    ∃ f, buildChain num fuel (robotXml sh r) = .ok (Chain.init f) ∧ Loaded r root f := by
  obtain ⟨f, h1, h2⟩ := C22_urdf_tree r root h hne hk fuel hf
  refine ⟨f, ?_, h2⟩
  have ht : ∀ j ∈ r.joints, j.type ∈ jointTypes := by
    intro j hj
    have := hk j hj
    unfold urdfKind at this
    split at this
    · next e => rw [e]; simp [jointTypes]
    · next e => rw [e]; simp [jointTypes]
    · next e => rw [e]; simp [jointTypes]
    · next e => rw [e]; simp [jointTypes]
    · exact absurd rfl this
  simp only [buildChain, readRobot_robotXml hw ht, ok_bind, h1]
  rfl

/-- the number syntax of the example: `1` for 1, `0` for 0 -/
noncomputable def exNum : NumParser := fun s =>
  if s = n!"1" then some (.fin 1) else if s = n!"0" then some (.fin 0) else none

open Classical in
/-- its printer -/
noncomputable def exShow : Fl → Name := fun x => if x = .fin 1 then n!"1" else n!"0"

/-- one revolute joint about `x`; the second link has visuals, collisions and an inertial -/
noncomputable def exSmall : Robot where
  links := [⟨n!"a", none, [], [], none⟩,
    ⟨n!"b", none, [⟨some ⟨![1, 0, 1], ![0, 0, 1]⟩, .cylinder (.fin 1) (.fin 0), some ⟨n!"red", none, none⟩⟩,
      ⟨none, .box ![1, 0, 1], none⟩, ⟨none, .sphere (.fin 1), none⟩],
      [⟨none, .mesh n!"b.stl" (some ![1, 1, 1])⟩, ⟨none, .capsule (.fin 1) (.fin 1)⟩],
      some ⟨none, .fin 1, some fun _ => .fin 1⟩⟩]
  joints := [⟨n!"j", n!"revolute", n!"a", n!"b", some ![1, 0, 0], some ⟨![1, 0, 1], ![0, 0, 1]⟩,
      some ⟨.fin 1, .fin 1, .fin 0, .fin 1⟩, none, some ⟨some (.fin 1), none⟩, some ⟨.fin 1, .fin 0, .fin 0, .fin 1⟩,
      some ⟨.fin 0, .fin 1⟩⟩]
  materials := [⟨n!"red", some ![1, 0, 0, 1], some n!"red.png"⟩]

theorem exWritten : Written exNum exShow (.fin 1) ∧ Written exNum exShow (.fin 0) := by
  have e1 : exShow (.fin 1) = n!"1" := by simp [exShow]
  have e0 : exShow (.fin 0) = n!"0" := by simp [exShow]
  constructor
  · refine ⟨by rw [e1]; simp [exNum], by rw [e1]; simp, by rw [e1]; simp⟩
  · refine ⟨by rw [e0]; simp [exNum], by rw [e0]; simp, by rw [e0]; simp⟩

theorem exSmall_written : RobotWritten exNum exShow exSmall := by
  obtain ⟨w1, w0⟩ := exWritten
  refine ⟨?_, ?_, ?_⟩
  · simp only [exSmall, List.mem_cons, List.not_mem_nil, or_false]
    rintro l (rfl | rfl)
    · exact ⟨by simp [OriginWritten], by simp, by simp, by simp⟩
    · refine ⟨by simp [OriginWritten], ?_, ?_, ?_⟩
      · simp only [List.mem_cons, List.not_mem_nil, or_false]
        rintro v (rfl | rfl | rfl)
        · refine ⟨?_, ⟨w1, w0⟩, ?_⟩
          · rintro p ⟨⟩ i; fin_cases i <;> exact ⟨by first | exact w1 | exact w0, by first | exact w1 | exact w0⟩
          · rintro m ⟨⟩ c ⟨⟩
        · refine ⟨by simp [OriginWritten], ?_, by simp⟩
          intro i; fin_cases i <;> first | exact w1 | exact w0
        · exact ⟨by simp [OriginWritten], w1, by simp⟩
      · simp only [List.mem_cons, List.not_mem_nil, or_false]
        rintro v (rfl | rfl)
        · refine ⟨by simp [OriginWritten], ?_⟩
          rintro v ⟨⟩ i; fin_cases i <;> exact w1
        · exact ⟨by simp [OriginWritten], w1, w1⟩
      · rintro i ⟨⟩
        exact ⟨by simp [OriginWritten], w1, by rintro m ⟨⟩ k; exact w1⟩
  · simp only [exSmall, List.mem_cons, List.not_mem_nil, or_false, forall_eq]
    refine ⟨?_, ?_, ?_, by simp, ?_, ?_, ?_⟩
    · rintro p ⟨⟩ i; fin_cases i <;> exact ⟨by first | exact w1 | exact w0, by first | exact w1 | exact w0⟩
    · rintro a ⟨⟩ i; fin_cases i <;> first | exact w1 | exact w0
    · rintro l ⟨⟩; exact ⟨w0, w1, w1, w1⟩
    · rintro d ⟨⟩; exact ⟨by rintro x ⟨⟩; exact w1, by rintro x ⟨⟩⟩
    · rintro d ⟨⟩; exact ⟨w1, w0, w0, w1⟩
    · rintro d ⟨⟩; exact ⟨w0, w1⟩
  · simp only [exSmall, List.mem_singleton, forall_eq]
    rintro c ⟨⟩ i; fin_cases i <;> first | exact w1 | exact w0

example : ∃ f, buildChain exNum 1000 (robotXml exShow exSmall) = .ok (Chain.init f) ∧ Loaded exSmall n!"a" f := by
  refine C22_document exNum exShow exSmall n!"a" ?_ (by simp [exSmall]) (by simp [exSmall, urdfKind])
    exSmall_written 1000 (by simp [exSmall])
  · refine ⟨by simp [exSmall], by simp [exSmall], by simp [exSmall], by simp [exSmall], by simp [exSmall],
      by simp [exSmall], ?_⟩
    intro l hl
    simp only [exSmall, List.map_cons, List.map_nil, List.mem_cons, List.not_mem_nil, or_false] at hl
    rcases hl with rfl | rfl
    · exact ⟨0, .here⟩
    · exact ⟨1, .step 0 exSmall.joints[0] (by simp [exSmall]) .here⟩

/-! ## C24 -/

/-- C24 (part): every description that is a tree with at least one joint, all joints of the four
supported types, loads.  Missing from the full statement (every valid URDF): a single link without
joints, and floating or planar joints, see `C24_single_link_fails`, `C24_other_types_fail`. -/
theorem C24_loads_partial (num : NumParser) (sh : Fl → Name) (r : Robot) (root : Name) (h : UrdfTree r root)
    (hne : r.joints ≠ []) (hk : ∀ j ∈ r.joints, urdfKind j.type ≠ none)
    (hw : RobotWritten num sh r)
    (fuel : ℕ) (hf : r.links.length ≤ fuel) : ∃ c, buildChain num fuel (robotXml sh r) = .ok c :=
  let ⟨f, h, _⟩ := C22_document num sh r root h hne hk hw fuel hf
  ⟨Chain.init f, h⟩

/-- C24 is false: `<robot><link name="a"/></robot>`, a valid URDF whose only link is a tree, raises
UnboundLocalError whatever the number syntax and stack size. -/
theorem C24_single_link_fails (num : NumParser) (fuel : ℕ) (l : Lnk) (sh : Fl → Name) (hl : LinkWritten num sh l) :
    UrdfTree ⟨[l], [], []⟩ l.name ∧ buildChain num fuel (robotXml sh ⟨[l], [], []⟩) = .error .unboundLocal := by
  constructor
  · refine ⟨by simp, by simp, by simp, by simp, by simp, by simp, ?_⟩
    intro n hn
    simp only [List.map_cons, List.map_nil, List.mem_singleton] at hn
    exact ⟨0, hn ▸ .here⟩
  · have := readRobot_robotXml (num := num) (sh := sh) (r := ⟨[l], [], []⟩) ⟨by simpa using hl, by simp, by simp⟩ (by simp)
    simp only [buildChain, this, ok_bind]
    rfl

/-- C24 is false: a tree whose joint at the root is `floating` or `planar` (valid URDF types, accepted by
the parser) raises KeyError. -/
theorem C24_other_types_fail (t : Name) (ht : t = n!"floating" ∨ t = n!"planar") (num : NumParser) (sh : Fl → Name)
    (fuel : ℕ) (a b : Name) (hab : a ≠ b) :
    let r : Robot := ⟨[⟨a, none, [], [], none⟩, ⟨b, none, [], [], none⟩], [⟨n!"j", t, a, b, none, none, none, none, none, none, none⟩], []⟩
    UrdfTree r a ∧ buildChain num (fuel + 1) (robotXml sh r) = .error .keyError := by
  intro r
  have hT : UrdfTree r a := by
    refine ⟨by simp [r, hab], by simp [r], by simp [r], by simp [r], by simp [r], by simp [r, hab.symm], ?_⟩
    intro l hl
    simp only [r, List.map_cons, List.map_nil, List.mem_cons, List.not_mem_nil, or_false] at hl
    rcases hl with rfl | rfl
    · exact ⟨0, .here⟩
    · exact ⟨1, .step 0 (Jnt.mk n!"j" t a _ none none none none none none none) (by simp [r]) .here⟩
  refine ⟨hT, ?_⟩
  have hread : readRobot num (robotXml sh r) = .ok r := by
    refine readRobot_robotXml ⟨?_, ?_, by simp [r]⟩ ?_
    · intro l hl
      simp only [r, List.mem_cons, List.not_mem_nil, or_false] at hl
      rcases hl with rfl | rfl <;> exact ⟨by simp [OriginWritten], by simp, by simp, by simp⟩
    · intro j hj
      simp only [r, List.mem_singleton] at hj
      subst hj
      refine ⟨by simp [OriginWritten], by simp, by simp, by simp, by simp, by simp, by simp⟩
    · intro j hj
      simp only [r, List.mem_singleton] at hj
      subst hj
      rcases ht with rfl | rfl <;> simp [jointTypes]
  have hk : urdfKind t = none := by rcases ht with rfl | rfl <;> rfl
  have hg : r.linkMap.get? a = some ⟨a, none, [], [], none⟩ :=
    linkMap_get r hT.links_nodup ⟨a, none, [], [], none⟩ (by simp [r])
  obtain ⟨w, hw, -⟩ := convertLink_ok ⟨a, none, [], [], none⟩
  have hrec : buildRecurse Jnt.parent Jnt.child (convertJoint r.linkMap) r.joints (fuel + 1) a = .error .keyError := by
    have hc : convertJoint r.linkMap ⟨n!"j", t, a, b, none, none, none, none, none, none, none⟩ = .error .keyError := by
      simp only [convertJoint, C23_origin, ok_bind, jointTypeMap_error hk, error_bind]
    rw [buildRecurse]
    simp only [r, List.filter_cons, List.filter_nil, decide_true, if_true, List.mapM_cons]
    have hc' : convertJoint (Robot.linkMap ⟨[⟨a, none, [], [], none⟩, ⟨b, none, [], [], none⟩], [⟨n!"j", t, a, b, none, none, none, none, none, none, none⟩], []⟩)
      ⟨n!"j", t, a, b, none, none, none, none, none, none, none⟩ = .error .keyError := hc
    rw [hc', error_bind, error_bind]
  simp only [buildChain, hread, ok_bind, buildRoot, rootName_tree hT (by simp [r]), hg, hw, hrec, error_bind]

/-! ## C25 -/

/-- C25 (part): a joint that declares an axis moves about it.  Missing: a joint without `<axis>`, where
the statement is false, see `C25_default_axis_fails`. -/
theorem C25_declared_axis_partial (r : Robot) (root : Name) (h : UrdfTree r root) (hne : r.joints ≠ [])
    (hk : ∀ j ∈ r.joints, urdfKind j.type ≠ none) (fuel : ℕ) (hf : r.links.length ≤ fuel) :
    ∃ f, buildRoot fuel r = .ok f ∧ ∀ j ∈ r.joints, ∀ a, j.axis = some a → a ≠ 0 →
      ∃ g ∈ preorder f, g.name = j.child ∧ ∃ c : ℝ, 0 < c ∧ g.joint.axis = c • a := by
  obtain ⟨f, h1, h2⟩ := C22_urdf_tree r root h hne hk fuel hf
  refine ⟨f, h1, fun j hj a ha h0 => ?_⟩
  obtain ⟨p, hp, g, hg, _, e, d⟩ := h2.joints j hj
  exact ⟨g, preorder_children hp hg, e, d.axis a ha h0⟩

theorem convertJoint_axis {r : Robot} {j : Jnt} {w : Joint × Link} (h : convertJoint r.linkMap j = .ok w)
    (ha : j.axis = none) : w.1.axis = ![0, 0, 1] := by
  simp only [convertJoint, C23_origin, ok_bind] at h
  cases h1 : jointTypeMap j.type with
  | error e => rw [h1] at h; cases h
  | ok t =>
    rw [h1] at h
    simp only [ok_bind] at h
    cases h2 : r.linkMap.get? j.child with
    | none => rw [h2] at h; cases h
    | some l =>
      obtain ⟨l', hl', _⟩ := convertLink_ok l
      rw [h2] at h
      simp only [ok_bind, hl', pure_ok, Except.ok.injEq] at h
      rw [← h]
      simp only [Joint.init, ha]
      funext i
      fin_cases i <;> simp [normalizeAxis, norm3, dot]

/-- C25 is false: in every loaded tree, a joint without `<axis>` moves about `(0,0,1)`, not about the URDF
default `(1,0,0)`. -/
theorem C25_default_axis_fails (r : Robot) (root : Name) (h : UrdfTree r root) (hne : r.joints ≠ [])
    (hk : ∀ j ∈ r.joints, urdfKind j.type ≠ none) (fuel : ℕ) (hf : r.links.length ≤ fuel) :
    ∃ f, buildRoot fuel r = .ok f ∧ ∀ j ∈ r.joints, j.axis = none →
      ∃ g ∈ preorder f, g.name = j.child ∧ g.joint.axis = ![0, 0, 1] ∧ g.joint.axis ≠ ![1, 0, 0] := by
  obtain ⟨f, h1, _, h2⟩ := urdf_tree_aux r root h hne hk fuel hf
  refine ⟨f, h1, fun j hj ha => ?_⟩
  obtain ⟨w, hw, p, hp, g, hg, _, e, d⟩ := h2 j hj
  have hax : g.joint.axis = ![0, 0, 1] := by rw [d]; exact convertJoint_axis hw ha
  exact ⟨g, preorder_children hp hg, e, hax, by rw [hax]; intro h; simpa using congrFun h 2⟩

/-- the two-link robot with one joint and no axis -/
def exNoAxis (t : Name) (lim : Option Limit) : Robot :=
  ⟨[⟨n!"a", none, [], [], none⟩, ⟨n!"b", none, [], [], none⟩], [⟨n!"j", t, n!"a", n!"b", none, none, lim, none, none, none, none⟩], []⟩

theorem exNoAxis_tree (t : Name) (lim : Option Limit) : UrdfTree (exNoAxis t lim) n!"a" := by
  refine ⟨by simp [exNoAxis], by simp [exNoAxis], by simp [exNoAxis], by simp [exNoAxis], by simp [exNoAxis],
    by simp [exNoAxis], ?_⟩
  intro l hl
  simp only [exNoAxis, List.map_cons, List.map_nil, List.mem_cons, List.not_mem_nil, or_false] at hl
  rcases hl with rfl | rfl
  · exact ⟨0, .here⟩
  · exact ⟨1, .step 0 (Jnt.mk n!"j" t n!"a" n!"b" none none lim none none none none) (by simp [exNoAxis]) .here⟩

example : ∃ f, buildRoot 100 (exNoAxis n!"revolute" none) = .ok f ∧
    ∃ g ∈ preorder f, g.name = n!"b" ∧ g.joint.axis = ![0, 0, 1] ∧ g.joint.axis ≠ ![1, 0, 0] := by
  obtain ⟨f, h1, h2⟩ := C25_default_axis_fails _ _ (exNoAxis_tree n!"revolute" none) (by simp [exNoAxis])
    (by simp [exNoAxis, urdfKind]) 100 (by simp [exNoAxis])
  exact ⟨f, h1, h2 _ (List.mem_singleton.2 rfl) rfl⟩

/-! ## C26 -/

/-- The value of a joint parameter in the order of `get_joint_parameter_names`. -/
theorem limit_entry (f : Frame) (param : Joint → Option (Fl × Fl)) (q : Joint) (hq : q ∈ movingJoints f) :
    ∃ i : ℕ, (Chain.init f).getJointParameterNames[i]? = some q.name ∧
      (limitArrays param ((Chain.init f).root.getJoints true)).1[i]? = some ((param q).map Prod.fst |>.getD .ninf) ∧
      (limitArrays param ((Chain.init f).root.getJoints true)).2[i]? = some ((param q).map Prod.snd |>.getD .pinf) := by
  obtain ⟨i, hi⟩ := List.mem_iff_getElem?.1 hq
  have h1 : (Chain.init f).root.getJoints true = movingJoints f := getJoints_true f
  have h2 : (Chain.init f).getJointParameterNames = (movingJoints f).map Joint.name := jointParamNames_eq f
  refine ⟨i, ?_, ?_, ?_⟩
  · rw [h2, List.getElem?_map, hi]; rfl
  · rw [h1]; simp only [limitArrays, List.getElem?_map, hi, Option.map_some]
    cases param q <;> rfl
  · rw [h1]; simp only [limitArrays, List.getElem?_map, hi, Option.map_some]
    cases param q <;> rfl

theorem declared_moving {f g : Frame} {j : Jnt} (hg : g ∈ preorder f) (d : Declared j g.joint) (ht : j.type ≠ n!"fixed") :
    g.joint ∈ movingJoints f := by
  refine List.mem_filter.2 ⟨List.mem_map_of_mem hg, ?_⟩
  refine decide_eq_true ?_
  intro hfix
  have := d.kind
  rw [hfix] at this
  unfold urdfKind at this
  split at this <;> first | contradiction | (next e => exact ht e) | cases this

/-- C26 (part): a joint with a `<limit>` gets its lower and upper bound, a joint without one has no limits, and the
chain reports `-inf`/`inf` for it.  Missing from the full statement: a continuous joint whose `<limit>` gives only
effort and velocity, where it is false, see `C26_continuous_fails`. -/
theorem C26_limits_partial (r : Robot) (root : Name) (h : UrdfTree r root) (hne : r.joints ≠ [])
    (hk : ∀ j ∈ r.joints, urdfKind j.type ≠ none) (fuel : ℕ) (hf : r.links.length ≤ fuel) :
    ∃ f, buildRoot fuel r = .ok f ∧ ∀ j ∈ r.joints, j.type ≠ n!"fixed" →
      ∃ i : ℕ, (Chain.init f).getJointParameterNames[i]? = some (some j.name) ∧
        (Chain.init f).low[i]? = some ((j.limit.map fun m => m.lower).getD .ninf) ∧
        (Chain.init f).high[i]? = some ((j.limit.map fun m => m.upper).getD .pinf) := by
  obtain ⟨f, h1, h2⟩ := C22_urdf_tree r root h hne hk fuel hf
  refine ⟨f, h1, fun j hj ht => ?_⟩
  obtain ⟨p, hp, g, hg, _, e, d⟩ := h2.joints j hj
  obtain ⟨i, e1, e2, e3⟩ := limit_entry f Joint.limits g.joint (declared_moving (preorder_children hp hg) d ht)
  refine ⟨i, by rw [e1, d.name], ?_, ?_⟩
  · refine e2.trans ?_
    rw [d.limits]; cases j.limit <;> rfl
  · refine e3.trans ?_
    rw [d.limits]; cases j.limit <;> rfl

/-- the prismatic joint of the example arm has limits ±1, its continuous joint has none -/
example : ∃ f, buildRoot 900 exRobot = .ok f ∧
    (∃ i : ℕ, (Chain.init f).getJointParameterNames[i]? = some (some n!"j2") ∧ (Chain.init f).low[i]? = some (.fin (-1)) ∧
      (Chain.init f).high[i]? = some (.fin 1)) ∧
    ∃ i : ℕ, (Chain.init f).getJointParameterNames[i]? = some (some n!"j1") ∧ (Chain.init f).low[i]? = some .ninf ∧
      (Chain.init f).high[i]? = some .pinf := by
  obtain ⟨f, h1, h2⟩ := C26_limits_partial exRobot n!"base" exRobot_tree (by simp [exRobot])
    (by simp [exRobot, urdfKind]) 900 (by simp [exRobot])
  exact ⟨f, h1, h2 exRobot.joints[0] (by simp [exRobot]) (by simp [exRobot]),
    h2 exRobot.joints[2] (by simp [exRobot]) (by simp [exRobot])⟩

/-- the document of a two-link robot whose continuous joint has `<limit effort=e velocity=v/>` -/
def exContinuous (e v : Name) : Xml :=
  .elem n!"robot" [(n!"name", n!"r")] none
    [.elem n!"link" [(n!"name", n!"a")] none [], .elem n!"link" [(n!"name", n!"b")] none [],
     .elem n!"joint" [(n!"name", n!"j"), (n!"type", n!"continuous")] none
       [.elem n!"parent" [(n!"link", n!"a")] none [], .elem n!"child" [(n!"link", n!"b")] none [],
        .elem n!"limit" [(n!"effort", e), (n!"velocity", v)] none []]]

/-- C26 is false: a continuous joint whose `<limit>` gives only effort and velocity gets the limits
`lower = upper = 0`. -/
theorem C26_continuous_fails (num : NumParser) (e v : Name) (x y : Fl) (he : num e = some x) (hv : num v = some y)
    (fuel : ℕ) (hf : 2 ≤ fuel) : ∃ c, buildChain num fuel (exContinuous e v) = .ok c ∧
      ∃ i : ℕ, c.getJointParameterNames[i]? = some (some n!"j") ∧ c.low[i]? = some (.fin 0) ∧ c.high[i]? = some (.fin 0) := by
  have hr : readRobot num (exContinuous e v) =
      .ok (exNoAxis n!"continuous" (some ⟨x, y, .fin 0, .fin 0⟩)) := by
    simp [readRobot, exContinuous, Xml.aggregate, Xml.scalar, Xml.children, Xml.tag, Xml.attr, Xml.attrs, readLink, readJoint,
      required, optional, readLimit, floatAttr, readFloat, he, hv, ok_bind, pure_ok, jointTypes, readStr, exNoAxis, List.lookup]
  obtain ⟨f, h1, h2⟩ := C26_limits_partial _ _ (exNoAxis_tree n!"continuous" (some ⟨x, y, .fin 0, .fin 0⟩)) (by simp [exNoAxis])
    (by simp [exNoAxis, urdfKind]) fuel (by simpa [exNoAxis] using hf)
  obtain ⟨i, h3, h4, h5⟩ := h2 _ (List.mem_singleton.2 rfl) (by simp)
  exact ⟨Chain.init f, by simp only [buildChain, hr, ok_bind, h1, pure_ok], i, h3, h4, h5⟩

/-- a number syntax with `effort="1"` -/
example : ∃ c, buildChain exNum 2 (exContinuous n!"1" n!"1") = .ok c ∧
    ∃ i : ℕ, c.getJointParameterNames[i]? = some (some n!"j") ∧ c.low[i]? = some (.fin 0) ∧ c.high[i]? = some (.fin 0) :=
  C26_continuous_fails exNum n!"1" n!"1" (.fin 1) (.fin 1) (by simp [exNum]) (by simp [exNum]) 2 (by simp)

end PK
