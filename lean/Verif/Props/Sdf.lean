import Verif.Lemmas.Loader
import Verif.Lemmas.SdfXml
import Verif.Props.Fk
import Verif.Props.Euler
import Verif.Props.Transform3d
import Verif.Props.Urdf
import Verif.Spec.Sdf

/-!
# Properties of the SDF loader: C27, C28
-/

namespace PK
open Spec Matrix
namespace Sdf

/-! ## conversion of one element -/

/-- C28: what `_convert_transform` computes: the first angle about `z`, the last about `x`. -/
theorem C28_conversion (o : Option Pose) :
    convertTransform o = .ok ⟨.plain, [sdfPoseZYX o], .f32, cpu, .f32, cpu⟩ := by
  cases o with
  | none => rfl
  | some p =>
    have h := C40_euler_angles_to_matrix .z .y .x (by decide) (by decide) p.rpy
    have h : eulerAnglesToMatrix p.rpy n!"ZYX" = .ok (seqRot true .z .y .x p.rpy) := h
    simp only [convertTransform, h, ok_bind]
    rw [T3_init_pos_rot p.xyz _ (.mat _) rfl]
    rfl

theorem elem_isRot (a : XYZ) (t : ℝ) : IsRot (elem a t) := isRot_rotAbout (by cases a <;> simp [IsUnitV, XYZ.vec]) t

theorem sdfPoseZYX_rigid (o : Option Pose) : IsRigid (sdfPoseZYX o) := by
  cases o with
  | none => exact isRigid_one
  | some p => exact isRigid_mkHom (((elem_isRot _ _).mul (elem_isRot _ _)).mul (elem_isRot _ _)) _

theorem T3_init_rot (R : M3) (r : RotArg) (hr : r.toMats = ([R], false)) (d : DType) (dev : Device) :
    T3.init (.default 1) none (some r) d dev = .ok ⟨.plain, [mkHom R 0], d, dev, d, dev⟩ := by
  have e : withRot R 1 = mkHom R 0 := by
    apply m4_ext; intro i j
    fin_cases i <;> fin_cases j <;> simp [withRot, mkHom]
  simp only [T3.init, initMatrix, setPos, ok_bind, setRot, hr, pure_ok, List.replicate_one]
  simp [repeatTo, e, catLast, ok_bind]

/-- what the loader makes of a visual: its own pose (with the angle order of C28), for cylinders followed by a quarter
turn about the cylinder's axis -/
noncomputable def keptVisual (v : Vis) : Visual :=
  ⟨some (match v.geometry with
    | .cylinder .. => sdfPoseZYX v.pose * mkHom (elem .z (Real.pi / 2)) 0
    | _ => sdfPoseZYX v.pose), some v.geometry.gType, v.geometry.gParam⟩

theorem convertVisual_ok (v : Vis) : convertVisual v = .ok (keptVisual v) := by
  have h := C40_euler_angles_to_matrix .z .y .x (by decide) (by decide) ![0.5 * Real.pi, 0, 0]
  have h : eulerAnglesToMatrix ![0.5 * Real.pi, 0, 0] n!"ZYX" = .ok (seqRot true .z .y .x ![0.5 * Real.pi, 0, 0]) := h
  have h0 : ∀ a : XYZ, elem a 0 = 1 := fun a => by
    rw [elem, ← axisAndAngleToMatrix33_eq_rotAbout, axisAndAngle_zero]
  have hr : seqRot true .z .y .x ![0.5 * Real.pi, 0, 0] = elem .z (Real.pi / 2) := by
    have : (0.5 : ℝ) * Real.pi = Real.pi / 2 := by ring
    simp [seqRot, h0, this]
  cases hg : v.geometry with
  | cylinder r l =>
    have := T3_init_rot (elem .z (Real.pi / 2)) (.mat (elem .z (Real.pi / 2))) rfl .f32 cpu
    simp only [convertVisual, C28_conversion, ok_bind, hg, h, hr, this, keptVisual]
    rfl
  | _ => simp only [convertVisual, C28_conversion, ok_bind, hg, keptVisual]; rfl

theorem convertLink_ok (l : Lnk) : ∃ w, convertLink l = .ok w ∧ w.name = l.name ∧ w.offset = some 1 ∧
    w.visuals = l.visuals.map keptVisual := by
  have := mapM_ok_map convertVisual keptVisual l.visuals fun v _ => convertVisual_ok v
  exact ⟨_, by simp only [convertLink, this, ok_bind, init_default]; rfl, rfl, rfl, rfl⟩

theorem jointTypeMap_ok {t : Option Name} {k : JType} (h : sdfKind t = some k) : jointTypeMap t = .ok k := by
  unfold sdfKind at h
  split at h
  all_goals first | (cases h; rfl) | cases h

theorem lookup_ok {m : Model} {names : List Name} {root : Name} (h : SdfTree m names root) {n : Name} (hn : n ∈ names) :
    ∃ l ∈ m.links, l.name = some n ∧ lookupLink m.linkMap n = .ok l := by
  have : some n ∈ m.links.map Lnk.name := by rw [h.named]; exact List.mem_map_of_mem hn
  obtain ⟨l, hl, e⟩ := List.mem_map.1 this
  refine ⟨l, hl, e, ?_⟩
  have hnd : (m.links.map Lnk.name).Nodup := by
    rw [h.named]; exact h.tree.links_nodup.map fun a b => Option.some.inj
  have : m.linkMap.get? l.name = some l := by
    unfold Model.linkMap
    exact get?_foldl_set m.links Lnk.name (fun l => l)
      (fun a ha b hb e => List.inj_on_of_nodup_map hnd ha hb e) hl
  rw [lookupLink, ← e, this]

theorem link_unique {m : Model} {names : List Name} {root : Name} (h : SdfTree m names root) {a b : Lnk}
    (ha : a ∈ m.links) (hb : b ∈ m.links) (e : a.name = b.name) : a = b := by
  have hnd : (m.links.map Lnk.name).Nodup := by
    rw [h.named]; exact h.tree.links_nodup.map fun a b => Option.some.inj
  exact List.inj_on_of_nodup_map hnd ha hb e

theorem inverse_compose (P C : M4) (hP : IsRigid P) : ∃ o : M4, P * o = C ∧
    (T3.inverse ⟨.plain, [P], .f32, cpu, .f32, cpu⟩).compose [⟨.plain, [C], .f32, cpu, .f32, cpu⟩] =
      .ok ⟨.plain, [o], .f32, cpu, .f32, cpu⟩ ∧ (IsRigid C → IsRigid o) := by
  refine ⟨invertMatrix P * C, ?_, ?_, ?_⟩
  · have h := invOf_spec (t := ⟨.plain, [P], .f32, cpu, .f32, cpu⟩) (by simpa [Regular] using hP) (M := P) (by simp)
    rw [← Matrix.mul_assoc]
    exact (congrArg (· * C) h.1).trans (Matrix.one_mul C)
  · simp only [T3.inverse, T3.matrixInverse, List.map_cons, List.map_nil, T3.compose_one, bzip_left, ok_bind]
  · intro hC
    rw [hP.eq_mkHom, invertMatrix_mkHom]
    exact (isRigid_mkHom hP.1.transpose _).mul hC

theorem convertJoint_ok {m : Model} {names : List Name} {root : Name} (h : SdfTree m names root) (j : Jnt)
    (hj : j ∈ m.joints) :
    ∃ w : Joint × Link, convertJoint m.linkMap j = .ok w ∧ w.2.name = some j.child ∧ (w.2.offset = some 1 ∧
      ∀ l ∈ m.links, l.name = some j.child → w.2.visuals = l.visuals.map keptVisual) ∧
      (∀ o, w.1.offset = some o → IsRigid o) ∧
      ∀ p ∈ m.links, ∀ c ∈ m.links, p.name = some j.parent → c.name = some j.child →
        SdfDeclared (sdfPoseZYX p.pose) (sdfPoseZYX c.pose) j w.1 := by
  obtain ⟨p, hp, ep, hp'⟩ := lookup_ok h (h.tree.parent_mem j hj)
  obtain ⟨c, hc, ec, hc'⟩ := lookup_ok h (h.tree.child_mem j hj)
  obtain ⟨k, hk⟩ := Option.ne_none_iff_exists'.1 (h.kinds j hj)
  obtain ⟨w, h1, h2, h3, h4⟩ := convertLink_ok c
  obtain ⟨o, ho, ho', hr⟩ := inverse_compose (sdfPoseZYX p.pose) (sdfPoseZYX c.pose) (sdfPoseZYX_rigid _)
  have hlim : ∃ lim, convertLimit k j.limit = .ok lim ∧
      (k ≠ .fixed → lim = j.limit.bind fun m => m.lower.bind fun l => m.upper.map fun u => (l, u)) := by
    have hb := h.bounds j hj
    rw [hk] at hb
    unfold convertLimit
    split
    · next e => exact ⟨_, rfl, fun _ => by rw [e]; rfl⟩
    · next l u e => exact ⟨_, rfl, fun _ => by rw [e]; rfl⟩
    · next x e2 e1 =>
      cases k
      case fixed => exact ⟨_, rfl, fun h => absurd rfl h⟩
      all_goals
        obtain ⟨b1, b2⟩ := hb (by simp) x e1
        obtain ⟨l, hl⟩ := Option.ne_none_iff_exists'.1 b1
        obtain ⟨u, hu⟩ := Option.ne_none_iff_exists'.1 b2
        exact absurd (by cases x; simp_all) (e2 l u)
  obtain ⟨lim, hlim, hlim'⟩ := hlim
  refine ⟨(Joint.init j.name (some o) k (some j.axis) lim, w), ?_, ?_, ⟨h3, ?_⟩, ?_, ?_⟩
  · simp only [convertJoint, hp', hc', ok_bind, C28_conversion, ho', jointTypeMap_ok hk, hlim, h1]
    rfl
  · rw [← ec]; exact h2
  · intro l hl e
    rw [link_unique h hl hc (e.trans ec.symm)]; exact h4
  · intro o' e
    simp only [Joint.init, Option.some.injEq] at e
    exact e ▸ hr (sdfPoseZYX_rigid _)
  · intro p' hp1 c' hc1 e1 e2
    rw [link_unique h hp1 hp (e1.trans ep.symm), link_unique h hc1 hc (e2.trans ec.symm)]
    refine ⟨rfl, hk, ⟨o, rfl, ho⟩, ?_, ?_⟩
    · intro h0
      have := axis_scaled j.axis h0
      exact ⟨this.2, this.1⟩
    · intro hm; exact hlim' hm

/-- What loading a tree means: one frame per link, parents and order as declared, declared joints. -/
structure Loaded (m : Model) (root : Name) (f : Frame) : Prop where
  root_name : f.name = root
  root_fixed : f.joint.jtype = .fixed
  root_pose : ∀ l ∈ m.links, l.name = some root → f.joint.offset = some (sdfPoseZYX l.pose)
  /-- exactly one frame per link -/
  frames : ((preorder f).map fun g => some g.name).Perm (m.links.map Lnk.name)
  /-- the children of a frame are the children of its link, in document order -/
  children : ∀ g ∈ preorder f,
    g.children.map Frame.name = (m.joints.filter fun j => decide (j.parent = g.name)).map Jnt.child
  /-- each joint of the description is the joint of its child's frame, below its parent's frame -/
  joints : ∀ j ∈ m.joints, ∃ p ∈ preorder f, ∃ g ∈ p.children, p.name = j.parent ∧ g.name = j.child ∧
    ∀ lp ∈ m.links, ∀ lc ∈ m.links, lp.name = some j.parent → lc.name = some j.child →
      SdfDeclared (sdfPoseZYX lp.pose) (sdfPoseZYX lc.pose) j g.joint
  /-- each frame carries its link, without an offset -/
  links : ∀ g ∈ preorder f, g.link.name = some g.name ∧ g.link.offset = some 1 ∧
    ∀ l ∈ m.links, l.name = some g.name → g.link.visuals = l.visuals.map keptVisual
  /-- no joint besides the declared ones -/
  only : ∀ g ∈ preorder f, g = f ∨ ∃ j ∈ m.joints, g.name = j.child ∧ (∀ o, g.joint.offset = some o → IsRigid o) ∧
    ∀ lp ∈ m.links, ∀ lc ∈ m.links, lp.name = some j.parent → lc.name = some j.child →
      SdfDeclared (sdfPoseZYX lp.pose) (sdfPoseZYX lc.pose) j g.joint

theorem C27_sdf_tree (m : Model) (names : List Name) (root : Name) (h : SdfTree m names root) (hne : m.joints ≠ [])
    (fuel : ℕ) (hf : m.links.length ≤ fuel) : ∃ f, buildRoot fuel m = .ok f ∧ Loaded m root f := by
  have hc : ∀ j : Jnt, ∃ w : Joint × Link, j ∈ m.joints → convertJoint m.linkMap j = .ok w ∧
      w.2.name = some j.child ∧ (w.2.offset = some 1 ∧
      ∀ l ∈ m.links, l.name = some j.child → w.2.visuals = l.visuals.map keptVisual) ∧ (∀ o, w.1.offset = some o → IsRigid o) ∧
      ∀ p ∈ m.links, ∀ c ∈ m.links, p.name = some j.parent → c.name = some j.child →
        SdfDeclared (sdfPoseZYX p.pose) (sdfPoseZYX c.pose) j w.1 := by
    intro j
    by_cases hj : j ∈ m.joints
    · obtain ⟨w, hw⟩ := convertJoint_ok h j hj
      exact ⟨w, fun _ => hw⟩
    · exact ⟨(Joint.init, {}), fun h => absurd h hj⟩
  choose mk hmk using hc
  have hlen : names.length = m.links.length := by simpa using (congrArg List.length h.named).symm
  obtain ⟨lr, hlr, elr, hlr'⟩ := lookup_ok h h.tree.root_mem
  obtain ⟨w, hw1, hw2, hw3, hw4⟩ := convertLink_ok lr
  have hrec := buildRecurse_ok h.tree (mkE := convertJoint m.linkMap) (mk := mk) (fun j hj => (hmk j hj).1) fuel root 0
    .here (by simpa [hlen] using hf)
  refine ⟨Frame.mk root w (Joint.init none (some (sdfPoseZYX lr.pose)))
    (pureBuild Jnt.parent Jnt.child mk m.joints fuel root), ?_, ?_⟩
  · simp only [buildRoot, rootName_tree h.tree hne, ok_bind, hlr', C28_conversion, hw1, hrec]
    rfl
  · obtain ⟨h1, h2, h3, h4⟩ := pureBuild_tree h.tree mk fuel (by simpa [hlen] using hf) w
      (Joint.init none (some (sdfPoseZYX lr.pose))) _ rfl
    refine ⟨rfl, rfl, ?_, ?_, h2, ?_, ?_, ?_⟩
    · intro l hl e
      rw [link_unique h hl hlr (e.trans elr.symm)]; rfl
    · rw [h.named]
      have := h1.map some
      rwa [List.map_map] at this
    · intro j hj
      obtain ⟨p, hp, g, hg, e1, e2, e3, e4⟩ := h3 j hj
      exact ⟨p, hp, g, hg, e1, e2, e3 ▸ (hmk j hj).2.2.2.2⟩
    · intro g hg
      rcases h4 g hg with rfl | ⟨j, hj, e1, e2, e3⟩
      · refine ⟨hw2.trans elr, hw3, fun l hl e => ?_⟩
        rw [link_unique h hl hlr (e.trans elr.symm)]; exact hw4
      · rw [e3, e1]; exact ⟨(hmk j hj).2.1, (hmk j hj).2.2.1⟩
    · intro g hg
      rcases h4 g hg with rfl | ⟨j, hj, e1, e2, e3⟩
      · exact Or.inl rfl
      · exact Or.inr ⟨j, hj, e1, e2 ▸ (hmk j hj).2.2.2.1, e2 ▸ (hmk j hj).2.2.2.2⟩

theorem mem_children_joint {m : Model} {names : List Name} {root : Name} {f : Frame} (h : SdfTree m names root)
    (hl : Loaded m root f) {p c : Frame} (hp : p ∈ preorder f) (hc : c ∈ p.children) :
    ∃ j ∈ m.joints, j.parent = p.name ∧ j.child = c.name ∧
    ∀ lp ∈ m.links, ∀ lc ∈ m.links, lp.name = some j.parent → lc.name = some j.child →
      SdfDeclared (sdfPoseZYX lp.pose) (sdfPoseZYX lc.pose) j c.joint := by
  have hnames : ((preorder f).map Frame.name).Nodup := by
    have := hl.frames.nodup_iff.2 (by rw [h.named]; exact h.tree.links_nodup.map fun a b => Option.some.inj)
    exact List.Nodup.of_map some (by rwa [List.map_map])
  have h1 : c.name ∈ p.children.map Frame.name := List.mem_map_of_mem hc
  rw [hl.children p hp] at h1
  obtain ⟨j, hj, e⟩ := List.mem_map.1 h1
  obtain ⟨hj, ej⟩ := List.mem_filter.1 hj
  obtain ⟨p', hp', g, hg, _, e2, d⟩ := hl.joints j hj
  have : g = c := List.inj_on_of_nodup_map hnames (preorder_children hp' hg) (preorder_children hp hc) (by rw [e2, e])
  exact ⟨j, hj, by simpa using ej, e, this ▸ d⟩

/-- C27: with every joint at zero, forward kinematics reports each link at its own pose as the loader
converts it. -/
theorem C27_zero_pose (m : Model) (names : List Name) (root : Name) (f : Frame) (h : SdfTree m names root)
    (hl : Loaded m root f) (hw : WF f) {B : ℕ} (th : List (Fin B → ℝ))
    (hth : th.length = (movingJoints f).length) (h0 : ∀ c ∈ th, ∀ b, c b = 0) :
    ∃ d, (Chain.init f).forwardKinematics th = .ok d ∧ ∀ l ∈ m.links, ∀ n, l.name = some n →
      ∃ T, d.get? n = some T ∧ ∀ b, T b = sdfPoseZYX l.pose := by
  obtain ⟨d, h1, -, h3⟩ := C01_fk_is_path_product f hw th hth
  refine ⟨d, h1, fun l hlm n hn => ?_⟩
  have hmem : some n ∈ (preorder f).map fun g => some g.name := by
    rw [hl.frames.mem_iff, ← hn]; exact List.mem_map_of_mem hlm
  obtain ⟨g, hg, eg⟩ := List.mem_map.1 hmem
  obtain ⟨p, hp, hpl⟩ := exists_path hg
  obtain ⟨T, t1, t2⟩ := h3 p g hp hpl
  have eg : g.name = n := Option.some.inj eg
  refine ⟨T, eg ▸ t1, fun b => ?_⟩
  rw [t2]
  have hv : ∀ q, colVal f th b q = 0 := by
    intro q
    unfold colVal
    rcases Nat.lt_or_ge (column f q) th.length with hlt | hge
    · rw [List.getD_eq_getElem _ _ hlt]; exact h0 _ (List.getElem_mem hlt) b
    · rw [List.getD_eq_default _ _ hge]
  have hlc : ∀ q : Frame, q ∈ preorder f → localT q (colVal f th b q.joint) = q.joint.offset.getD 1 := by
    intro q hq
    rw [hv, localT, (hl.links q hq).2.1, motion_zero]; simp
  have key : ∀ p, IsPath f p → ∀ g, p.getLast? = some g → g ∈ preorder f ∧ ∀ l ∈ m.links, l.name = some g.name →
      pathT (colVal f th b) p = sdfPoseZYX l.pose := by
    intro p hp
    induction hp with
    | single =>
      intro g e
      simp only [List.getLast?_singleton, Option.some.injEq] at e
      subst e
      refine ⟨preorder_root_mem _, fun l hlm e => ?_⟩
      rw [pathT, List.map_singleton, List.prod_singleton, hlc _ (preorder_root_mem _),
        hl.root_pose l hlm (by rw [e, hl.root_name])]
      rfl
    | snoc p q c hp hc ih =>
      intro g e
      simp only [List.getLast?_append, List.getLast?_singleton, Option.some_or, Option.some.injEq] at e
      subst e
      obtain ⟨hq, ih⟩ := ih q (by simp)
      refine ⟨preorder_children hq hc, fun l hlm e => ?_⟩
      obtain ⟨j, hj, e1, e2, dj⟩ := mem_children_joint h hl hq hc
      obtain ⟨lp, hlp, elp, _⟩ := lookup_ok h (h.tree.parent_mem j hj)
      have dj := dj lp hlp l hlm elp (by rw [e, e2])
      obtain ⟨o, ho, ho'⟩ := dj.offset
      have hpp := ih lp hlp (by rw [elp, e1])
      rw [pathT] at hpp ⊢
      rw [List.map_append, List.prod_append, hpp, List.map_singleton, List.prod_singleton, hlc _ (preorder_children hq hc),
        ho, Option.getD_some, ho']
  exact (key p hp g hpl).2 l hlm (by rw [hn, eg])

/-- C27: in every configuration, the pose of a joint's child link in its parent link is the difference of
the two link poses followed by the joint's motion about the declared axis. -/
theorem C27_child_pose (m : Model) (names : List Name) (root : Name) (f : Frame) (h : SdfTree m names root)
    (hl : Loaded m root f) (hw : WF f) {B : ℕ} (th : List (Fin B → ℝ))
    (hth : th.length = (movingJoints f).length) :
    ∃ d, (Chain.init f).forwardKinematics th = .ok d ∧ ∀ j ∈ m.joints, ∃ Tp Tc q,
      d.get? j.parent = some Tp ∧ d.get? j.child = some Tc ∧ ∃ o,
      (∀ lp ∈ m.links, ∀ lc ∈ m.links, lp.name = some j.parent → lc.name = some j.child →
        SdfDeclared (sdfPoseZYX lp.pose) (sdfPoseZYX lc.pose) j q ∧ sdfPoseZYX lp.pose * o = sdfPoseZYX lc.pose) ∧
      ∀ b, Tc b = Tp b * (o * motion q (colVal f th b q)) := by
  obtain ⟨d, h1, -, h3⟩ := C01_fk_is_path_product f hw th hth
  refine ⟨d, h1, fun j hj => ?_⟩
  obtain ⟨p, hp, g, hg, e1, e2, dj⟩ := hl.joints j hj
  obtain ⟨l, l1, l2, l3⟩ := path_snoc hp hg
  obtain ⟨Tp, a1, a2⟩ := h3 l p l1 l2
  obtain ⟨Tc, b1, b2⟩ := h3 (l ++ [g]) g l3 (by simp)
  refine ⟨Tp, Tc, g.joint, e1 ▸ a1, e2 ▸ b1, g.joint.offset.getD 1, ?_, ?_⟩
  · intro lp hlp lc hlc ep ec
    have dj := dj lp hlp lc hlc ep ec
    obtain ⟨o, ho, ho'⟩ := dj.offset
    exact ⟨dj, by rw [ho]; exact ho'⟩
  · intro b
    rw [a2, b2]
    unfold pathT
    rw [List.map_append, List.prod_append]
    congr 1
    simp [localT, (hl.links g (preorder_children hp hg)).2]

/-- C27: the loaded tree satisfies the hypotheses of the forward kinematics theorems. -/
theorem C27_usable (m : Model) (names : List Name) (root : Name) (f : Frame) (h : SdfTree m names root)
    (hl : Loaded m root f) (hj : (m.joints.map Jnt.name).Nodup)
    (hn : ∀ n ∈ names, n.head? ≠ some '\n' ∧ n.getLast? ≠ some '\n') (hax : ∀ j ∈ m.joints, j.axis ≠ 0) :
    WF f ∧ RigidTree f := by
  have hnames : ((preorder f).map Frame.name).Nodup := by
    have := hl.frames.nodup_iff.2 (by rw [h.named]; exact h.tree.links_nodup.map fun a b => Option.some.inj)
    exact List.Nodup.of_map some (by rwa [List.map_map])
  have hmov : ∀ g ∈ preorder f, Moving g.joint → ∃ j ∈ m.joints, g.name = j.child ∧ ∃ P C, SdfDeclared P C j g.joint := by
    intro g hg hm
    rcases hl.only g hg with rfl | ⟨j, hj, e, _, d⟩
    · exact absurd hl.root_fixed hm
    · obtain ⟨lp, hlp, elp, _⟩ := lookup_ok h (h.tree.parent_mem j hj)
      obtain ⟨lc, hlc, elc, _⟩ := lookup_ok h (h.tree.child_mem j hj)
      exact ⟨j, hj, e, _, _, d lp hlp lc hlc elp elc⟩
  refine ⟨⟨hnames, ?_, ?_⟩, ⟨?_, ?_, ?_⟩⟩
  · intro g hg
    have : some g.name ∈ m.links.map Lnk.name := hl.frames.subset (List.mem_map_of_mem hg)
    rw [h.named] at this
    obtain ⟨n, hn', e⟩ := List.mem_map.1 this
    rw [← Option.some.inj e]; exact hn n hn'
  · have : movingJoints f = ((preorder f).filter fun g => decide (Moving g.joint)).map Frame.joint := by
      unfold movingJoints; rw [List.filter_map]; rfl
    rw [this, List.map_map]
    refine List.Nodup.map_on ?_ ((List.Nodup.of_map _ hnames).filter _)
    intro a ha b hb e
    obtain ⟨ha, ma⟩ := List.mem_filter.1 ha
    obtain ⟨hb, mb⟩ := List.mem_filter.1 hb
    obtain ⟨ja, hja, ea, _, _, da⟩ := hmov a ha (by simpa using ma)
    obtain ⟨jb, hjb, eb, _, _, db⟩ := hmov b hb (by simpa using mb)
    have e' : ja.name = jb.name := by rw [← da.name, ← db.name]; exact e
    have := List.inj_on_of_nodup_map hj hja hjb e'
    subst this
    exact List.inj_on_of_nodup_map hnames ha hb (by rw [ea, eb])
  · intro g hg o ho
    rw [(hl.links g hg).2.1] at ho
    cases ho; exact isRigid_one
  · intro g hg o ho
    rcases hl.only g hg with rfl | ⟨j, _, _, d, _⟩
    · obtain ⟨l, hlm, e, _⟩ := lookup_ok h h.tree.root_mem
      rw [hl.root_pose l hlm e] at ho; cases ho; exact sdfPoseZYX_rigid _
    · exact d o ho
  · intro g hg hm
    obtain ⟨j, hj, _, _, _, d⟩ := hmov g hg hm
    exact (d.axis (hax j hj)).2

/-- C27: the joint parameters are the declared moving joints, each once. -/
theorem C27_joint_names (m : Model) (names : List Name) (root : Name) (f : Frame) (h : SdfTree m names root)
    (hl : Loaded m root f) (hw : WF f) (hj : (m.joints.map Jnt.name).Nodup) :
    ((Chain.init f).getJointParameterNames).Perm
      ((m.joints.filter fun j => decide (sdfKind j.type ≠ some .fixed)).map Jnt.name) := by
  have e : (Chain.init f).getJointParameterNames = (movingJoints f).map Joint.name := jointParamNames_eq f
  rw [e, List.perm_ext_iff_of_nodup hw.joints_nodup ((List.filter_sublist.map _).nodup hj)]
  intro x
  have dec : ∀ j ∈ m.joints, ∃ g ∈ preorder f, ∃ P C, SdfDeclared P C j g.joint := by
    intro j hj
    obtain ⟨lp, hlp, elp, _⟩ := lookup_ok h (h.tree.parent_mem j hj)
    obtain ⟨lc, hlc, elc, _⟩ := lookup_ok h (h.tree.child_mem j hj)
    obtain ⟨p, hp, g, hg, _, _, d⟩ := hl.joints j hj
    exact ⟨g, preorder_children hp hg, _, _, d lp hlp lc hlc elp elc⟩
  constructor
  · intro hx
    obtain ⟨q, hq, rfl⟩ := List.mem_map.1 hx
    obtain ⟨mq, g, hg, rfl⟩ := mem_movingJoints.1 hq
    rcases hl.only g hg with rfl | ⟨j, hj, e, _, d⟩
    · exact absurd hl.root_fixed mq
    · obtain ⟨lp, hlp, elp, _⟩ := lookup_ok h (h.tree.parent_mem j hj)
      obtain ⟨lc, hlc, elc, _⟩ := lookup_ok h (h.tree.child_mem j hj)
      have d := d lp hlp lc hlc elp elc
      refine List.mem_map.2 ⟨j, List.mem_filter.2 ⟨hj, decide_eq_true ?_⟩, d.name.symm⟩
      rw [d.kind]; intro h; exact mq (Option.some.inj h)
  · intro hx
    obtain ⟨j, hj, rfl⟩ := List.mem_map.1 hx
    obtain ⟨hj, tj⟩ := List.mem_filter.1 hj
    obtain ⟨g, hg, P, C, d⟩ := dec j hj
    refine List.mem_map.2 ⟨g.joint, mem_movingJoints.2 ⟨?_, g, hg, rfl⟩, d.name⟩
    intro hf
    exact of_decide_eq_true tj (by rw [d.kind, hf])

/-! ## documents -/

/-- C27: the same for the document: a written model (any number syntax `num`, any printer `sh` that the
syntax reads back) loads to a chain over the declared tree. -/
theorem C27_document (num : NumParser) (sh : Fl → Name) (m : Model)
    (names : List Name) (root : Name) (h : SdfTree m names root) (hne : m.joints ≠ []) (hm : SdfWritten num sh m)
    (fuel : ℕ) (hf : m.links.length ≤ fuel) :
    ∃ f, buildChain num fuel (sdfXml sh m) = .ok (Chain.init f) ∧ Loaded m root f := by
  obtain ⟨f, h1, h2⟩ := C27_sdf_tree m names root h hne fuel hf
  refine ⟨f, ?_, h2⟩
  simp only [buildChain, readSdf_xml hm, ok_bind, h1]
  rfl

/-- unit mass and inertia, for the examples -/
noncomputable def exInertial : Inertial := ⟨.fin 1, ![.fin 1, .fin 0, .fin 0, .fin 1, .fin 0, .fin 1], none⟩

/-- one prismatic joint along `x`; bodies with shapes -/
noncomputable def exSmall : Model where
  links := [⟨some n!"a", none, [⟨none, .cylinder (.fin 1) (.fin 1)⟩, ⟨some ⟨![1, 0, 0], ![0, 1, 0]⟩, .mesh n!"m.stl" (some ![1, 1, 1])⟩],
      [⟨none, .box ![1, 1, 1]⟩], exInertial⟩,
    ⟨some n!"b", some ⟨![1, 0, 1], ![0, 0, 1]⟩, [⟨none, .sphere (.fin 1)⟩], [], ⟨.fin 1, fun _ => .fin 1, some ⟨![1, 0, 0], ![0, 0, 0]⟩⟩⟩]
  joints := [⟨some n!"j", some n!"prismatic", n!"a", n!"b", ![1, 0, 0], some ⟨some (.fin 0), some (.fin 1)⟩, none,
    some ⟨some (.fin 0), none⟩⟩]

theorem exInertial_written : Written exNum exShow exInertial.mass ∧ (∀ i, Written exNum exShow (exInertial.inertia i)) ∧
    PoseWritten exNum exShow exInertial.pose := by
  obtain ⟨w1, w0⟩ := exWritten
  refine ⟨w1, ?_, by rintro p ⟨⟩⟩
  intro i; fin_cases i <;> first | exact w1 | exact w0

theorem exSmall_written : SdfWritten exNum exShow exSmall := by
  obtain ⟨w1, w0⟩ := exWritten
  have wp : ∀ x y : V3, (∀ i, x i = 0 ∨ x i = 1) → (∀ i, y i = 0 ∨ y i = 1) → PoseWritten exNum exShow (some ⟨x, y⟩) := by
    rintro x y hx hy p ⟨⟩ i
    constructor
    · rcases hx i with e | e <;> simp only [e] <;> first | exact w0 | exact w1
    · rcases hy i with e | e <;> simp only [e] <;> first | exact w0 | exact w1
  have fin3 : ∀ P : Fin 3 → Prop, P 0 → P 1 → P 2 → ∀ i, P i := fun P a b c i => by fin_cases i <;> assumption
  have pn : PoseWritten exNum exShow none := by rintro p ⟨⟩
  constructor
  · simp only [exSmall, List.mem_cons, List.not_mem_nil, or_false, forall_eq_or_imp, forall_eq]
    refine ⟨⟨pn, ?_, ?_, exInertial_written.1, exInertial_written.2.1, exInertial_written.2.2⟩,
      ⟨wp _ _ (fin3 _ (by simp) (by simp) (by simp)) (fin3 _ (by simp) (by simp) (by simp)), ?_, by simp, w1, fun _ => w1,
        wp _ _ (fin3 _ (by simp) (by simp) (by simp)) (fin3 _ (by simp) (by simp) (by simp))⟩⟩
    · simp only [List.mem_cons, List.not_mem_nil, or_false, forall_eq_or_imp, forall_eq]
      refine ⟨⟨pn, w1, w1⟩, wp _ _ (fin3 _ (by simp) (by simp) (by simp)) (fin3 _ (by simp) (by simp) (by simp)), ?_⟩
      rintro v ⟨⟩
      exact fin3 _ w1 w1 w1
    · simp only [List.mem_cons, List.not_mem_nil, or_false, forall_eq]
      exact ⟨pn, fin3 _ w1 w1 w1⟩
    · simp only [List.mem_cons, List.not_mem_nil, or_false, forall_eq]
      exact ⟨pn, w1⟩
  · simp only [exSmall, List.mem_cons, List.not_mem_nil, or_false, forall_eq]
    refine ⟨pn, fin3 _ w1 w0 w0, ?_, ?_⟩
    · rintro l ⟨⟩; exact ⟨by rintro y ⟨⟩; exact w0, by rintro y ⟨⟩; exact w1⟩
    · rintro l ⟨⟩; exact ⟨by rintro y ⟨⟩; exact w0, by rintro y ⟨⟩⟩

example : ∃ f, buildChain exNum 1000 (sdfXml exShow exSmall) = .ok (Chain.init f) ∧
    Loaded exSmall n!"a" f := by
  refine C27_document _ _ exSmall [n!"a", n!"b"] n!"a" ?_ (by simp [exSmall]) exSmall_written 1000 (by simp [exSmall])
  refine ⟨rfl, ⟨by simp, by simp, by simp [exSmall], by simp [exSmall], by simp [exSmall], by simp [exSmall], ?_⟩,
    by simp [exSmall, sdfKind], by simp [exSmall]⟩
  intro l hl
  simp only [List.mem_cons, List.not_mem_nil, or_false] at hl
  rcases hl with rfl | rfl
  · exact ⟨0, .here⟩
  · exact ⟨1, .step 0 exSmall.joints[0] (by simp [exSmall]) .here⟩

/-! ## C28 -/

/-- C28 (part): the conversion agrees with the SDF convention when roll equals yaw, in particular for
translations and pure pitch.  Missing from the full statement: other angles, where it is false, see
`C28_fails`. -/
theorem C28_pose_partial (o : Option Pose) (h : ∀ p, o = some p → p.rpy 0 = p.rpy 2) :
    convertTransform o = .ok ⟨.plain, [sdfPose o], .f32, cpu, .f32, cpu⟩ := by
  rw [C28_conversion]
  cases o with
  | none => rfl
  | some p => simp only [sdfPoseZYX, sdfPose, rpyPose, h p rfl]

example : ∃ o : Option Pose, (∀ p, o = some p → p.rpy 0 = p.rpy 2) ∧ sdfPose o ≠ 1 :=
  ⟨some ⟨![1, 2, 3], ![0, 0, 0]⟩, by rintro _ ⟨⟩; simp, fun h => by
    simpa [sdfPose, rpyPose, mkHom] using congrFun (congrFun h 0) 3⟩

/-- A base and an arm turned by a roll of 90 degrees, joined by a revolute joint. -/
noncomputable def exModel : Model where
  links := [⟨some n!"base", none, [], [], exInertial⟩, ⟨some n!"arm", some ⟨![0, 0, 1], ![Real.pi / 2, 0, 0]⟩, [], [], exInertial⟩]
  joints := [⟨some n!"j", some n!"revolute", n!"base", n!"arm", ![0, 0, 2], some ⟨some (.fin (-1)), some (.fin 1)⟩, none, none⟩]

theorem exModel_tree : SdfTree exModel [n!"base", n!"arm"] n!"base" := by
  refine ⟨rfl, ⟨by simp, by simp, by simp [exModel], by simp [exModel], by simp [exModel], by simp [exModel], ?_⟩,
    by simp [exModel, sdfKind], by simp [exModel]⟩
  intro l hl
  simp only [List.mem_cons, List.not_mem_nil, or_false] at hl
  rcases hl with rfl | rfl
  · exact ⟨0, .here⟩
  · exact ⟨1, .step 0 exModel.joints[0] (by simp [exModel]) .here⟩

theorem exModel_loads : ∃ f, buildRoot 2 exModel = .ok f ∧ Loaded exModel n!"base" f ∧ WF f ∧ RigidTree f := by
  obtain ⟨f, h1, h2⟩ := C27_sdf_tree exModel _ _ exModel_tree (by simp [exModel]) 2 (by simp [exModel])
  refine ⟨f, h1, h2, C27_usable exModel _ _ f exModel_tree h2 (by simp [exModel]) (by simp) ?_⟩
  simp only [exModel, List.mem_singleton, forall_eq]
  intro h0
  simpa using congrFun h0 2

/-- C28 is false: for the model above, a valid tree, forward kinematics with the joint at zero reports the
arm somewhere else than at the pose of its pose element. -/
theorem C28_fails : ∃ f, buildRoot 2 exModel = .ok f ∧ ∃ d T,
    (Chain.init f).forwardKinematics (B := 1) [fun _ => 0] = .ok d ∧ d.get? n!"arm" = some T ∧
    exModel.links[1]?.bind Lnk.name = some n!"arm" ∧
    T 0 ≠ sdfPose (exModel.links[1]?.bind Lnk.pose) := by
  obtain ⟨f, h1, h2, h3, _⟩ := exModel_loads
  refine ⟨f, h1, ?_⟩
  have hm : (movingJoints f).length = 1 := by
    have e : (Chain.init f).getJointParameterNames = (movingJoints f).map Joint.name := jointParamNames_eq f
    have := (C27_joint_names exModel _ _ f exModel_tree h2 h3 (by simp [exModel])).length_eq
    rw [e] at this
    simpa [exModel, sdfKind] using this
  obtain ⟨d, hd, h⟩ := C27_zero_pose exModel _ _ f exModel_tree h2 h3 (B := 1) [fun _ => 0] (by simp [hm]) (by simp)
  obtain ⟨T, t1, t2⟩ := h exModel.links[1] (by simp [exModel]) n!"arm" rfl
  refine ⟨d, T, hd, t1, rfl, ?_⟩
  rw [t2]
  intro he
  have := congrFun (congrFun he 0) 0
  simp [exModel, sdfPose, sdfPoseZYX, rpyPose, mkHom, elem, rotAbout, rodrigues, XYZ.vec, Matrix.mul_apply,
    Fin.sum_univ_three, cross_apply, dot] at this

end Sdf
end PK
