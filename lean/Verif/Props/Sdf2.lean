import Verif.Props.Sdf
import Verif.Props.Urdf2

/-!
# Further properties of the SDF loader: C77 serial chains, C78 joint poses, C79 valid models, C80 limits
-/

namespace PK
open Spec Matrix
namespace Sdf

/-! ## C77 -/

/-- C77, SDF: `build_serial_chain_from_sdf` on the document of a tree; same statement as for URDF. -/
theorem C77_serial_sdf (num : NumParser) (sh : Fl → Name) (m : Model)
    (names : List Name) (root : Name) (h : SdfTree m names root) (hne : m.joints ≠ []) (hm : SdfWritten num sh m)
    (hjn : (m.joints.map Jnt.name).Nodup) (hn : ∀ n ∈ names, n.head? ≠ some '\n' ∧ n.getLast? ≠ some '\n')
    (hax : ∀ j ∈ m.joints, j.axis ≠ 0)
    (fuel : ℕ) (hf : m.links.length ≤ fuel) (rootArg endLink : Name) :
    (∀ js, startLink root rootArg ∈ names → DescPath Jnt.parent Jnt.child m.joints (startLink root rootArg) endLink js →
      ∃ s qs, buildSerialChain num fuel (sdfXml sh m) endLink rootArg = .ok s ∧
        List.Forall₂ (fun j q => ∀ lp ∈ m.links, ∀ lc ∈ m.links, lp.name = some j.parent → lc.name = some j.child →
          SdfDeclared (sdfPoseZYX lp.pose) (sdfPoseZYX lc.pose) j q) js qs ∧
        s.chain.getFrameNames false = startLink root rootArg :: js.map Jnt.child ∧
        s.chain.getJoints = qs.filter (fun q => decide (Moving q)) ∧
        s.chain.getJointParameterNames = (qs.filter fun q => decide (Moving q)).map Joint.name) ∧
    (buildSerialChain num fuel (sdfXml sh m) endLink rootArg = .error .valueError ↔ rootArg ≠ [] ∧ rootArg ∉ names) ∧
    (buildSerialChain num fuel (sdfXml sh m) endLink rootArg = .error .keyError ↔ startLink root rootArg ∈ names ∧
      ∀ js, ¬ DescPath Jnt.parent Jnt.child m.joints (startLink root rootArg) endLink js) := by
  obtain ⟨f, h1, h2⟩ := C27_document num sh m names root h hne hm fuel hf
  have hw := (C27_usable m names root f h h2 hjn hn hax).1
  have e : buildSerialChain num fuel (sdfXml sh m) endLink rootArg = SerialChain.init f endLink rootArg := by
    simp only [buildSerialChain, h1, ok_bind]; rfl
  rw [e]
  have hp : ((preorder f).map Frame.name).Perm names := by
    have := h2.frames
    rw [h.named] at this
    have e2 : ((preorder f).map fun g => some g.name) = ((preorder f).map Frame.name).map some := by
      rw [List.map_map]; rfl
    rw [e2] at this
    exact (List.map_perm_map_iff (Option.some_injective _)).1 this
  exact serial_desc hw h2.root_name hp h2.children h2.joints rootArg endLink

theorem exSmall_tree : SdfTree exSmall [n!"a", n!"b"] n!"a" := by
  refine ⟨rfl, ⟨by simp, by simp, by simp [exSmall], by simp [exSmall], by simp [exSmall], by simp [exSmall], ?_⟩,
    by simp [exSmall, sdfKind], by simp [exSmall]⟩
  intro l hl
  simp only [List.mem_cons, List.not_mem_nil, or_false] at hl
  rcases hl with rfl | rfl
  · exact ⟨0, .here⟩
  · exact ⟨1, .step 0 exSmall.joints[0] (by simp [exSmall]) .here⟩

/-- on the two-link model -/
example : (∃ s, buildSerialChain exNum 9 (sdfXml exShow exSmall) n!"b" [] = .ok s ∧
      s.chain.getFrameNames false = [n!"a", n!"b"]) ∧
    buildSerialChain exNum 9 (sdfXml exShow exSmall) n!"b" n!"x" = .error .valueError := by
  have key := fun a e => C77_serial_sdf exNum exShow exSmall _ n!"a" exSmall_tree (by simp [exSmall])
    exSmall_written (by simp [exSmall]) (by simp)
    (by simp only [exSmall, List.mem_singleton]; rintro j rfl h0; simpa using congrFun h0 0) 9 (by simp [exSmall]) a e
  refine ⟨?_, (key n!"x" n!"b").2.1.2 (by simp)⟩
  obtain ⟨s, qs, h1, h2, h3, h4, h5⟩ := (key [] n!"b").1 exSmall.joints (by simp [startLink])
    (.snoc [] exSmall.joints[0] .nil (by simp [exSmall]))
  exact ⟨s, h1, h3⟩

/-! ## C78 -/

/-- C78 (part): a joint whose frame is the child link's frame (no `<pose>`), and a prismatic joint whose `<pose>` is a
translation, move the child as SDF says: `o` is the child's pose in its parent, `J` the joint's pose in the child, and the
child is moved by `J * motion * J⁻¹`.  Missing from the full statement: other joint poses, where it is false, see
`C78_fails`. -/
theorem C78_joint_pose_partial (m : Model) (names : List Name) (root : Name) (f : Frame) (h : SdfTree m names root)
    (hl : Loaded m root f) (hw : WF f) {B : ℕ} (th : List (Fin B → ℝ)) (hth : th.length = (movingJoints f).length) :
    ∃ d, (Chain.init f).forwardKinematics th = .ok d ∧ ∀ j ∈ m.joints,
      (j.pose = none ∨ sdfKind j.type = some .prismatic ∧ ∃ t, j.pose = some ⟨t, ![0, 0, 0]⟩) → ∃ Tp Tc q o K,
      d.get? j.parent = some Tp ∧ d.get? j.child = some Tc ∧ sdfPose j.pose * K = 1 ∧
      (∀ lp ∈ m.links, ∀ lc ∈ m.links, lp.name = some j.parent → lc.name = some j.child →
        SdfDeclared (sdfPoseZYX lp.pose) (sdfPoseZYX lc.pose) j q ∧ sdfPoseZYX lp.pose * o = sdfPoseZYX lc.pose) ∧
      ∀ b, Tc b = Tp b * (o * (sdfPose j.pose * motion q (colVal f th b q) * K)) := by
  obtain ⟨d, h1, h2⟩ := C27_child_pose m names root f h hl hw th hth
  refine ⟨d, h1, fun j hj hp => ?_⟩
  obtain ⟨Tp, Tc, q, a1, a2, o, a3, a4⟩ := h2 j hj
  rcases hp with hp | ⟨hk, t, hp⟩
  · refine ⟨Tp, Tc, q, o, 1, a1, a2, by rw [hp]; simp [sdfPose], a3, fun b => ?_⟩
    rw [a4, hp]; simp [sdfPose]
  · have hJ : sdfPose j.pose = mkHom 1 t := by
      rw [hp]
      simp only [sdfPose, rpyPose]
      have : ∀ a : XYZ, elem a 0 = 1 := fun a => by
        rw [elem, ← axisAndAngleToMatrix33_eq_rotAbout, axisAndAngle_zero]
      simp [this]
    obtain ⟨lp, hlp, ep, _⟩ := lookup_ok h (h.tree.parent_mem j hj)
    obtain ⟨lc, hlc, ec, _⟩ := lookup_ok h (h.tree.child_mem j hj)
    have hq : q.jtype = .prismatic := by
      have := (a3 lp hlp lc hlc ep ec).1.kind
      rw [hk] at this
      exact (Option.some.inj this).symm
    refine ⟨Tp, Tc, q, o, mkHom 1 (-t), a1, a2, by rw [hJ]; simp [mkHom_mul, mkHom_one], a3, fun b => ?_⟩
    rw [a4, hJ]
    simp only [motion, hq, mkHom_mul, Matrix.one_mul, Matrix.one_mulVec]
    congr 3
    abel

/-- A base and an arm at the same place; the revolute joint is one unit away from the arm's origin. -/
noncomputable def exOff : Model where
  links := [⟨some n!"base", none, [], [], exInertial⟩, ⟨some n!"arm", none, [], [], exInertial⟩]
  joints := [⟨some n!"j", some n!"revolute", n!"base", n!"arm", ![0, 0, 1], none, some ⟨![1, 0, 0], ![0, 0, 0]⟩, none⟩]

theorem exOff_tree : SdfTree exOff [n!"base", n!"arm"] n!"base" := by
  refine ⟨rfl, ⟨by simp, by simp, by simp [exOff], by simp [exOff], by simp [exOff], by simp [exOff], ?_⟩,
    by simp [exOff, sdfKind], by simp [exOff]⟩
  intro l hl
  simp only [List.mem_cons, List.not_mem_nil, or_false] at hl
  rcases hl with rfl | rfl
  · exact ⟨0, .here⟩
  · exact ⟨1, .step 0 exOff.joints[0] (by simp [exOff]) .here⟩

/-- C78 is false: half a turn about the joint of this model moves the arm's origin to `(2, 0, 0)`; forward kinematics
leaves it at the origin. -/
theorem C78_fails : ∃ f, buildRoot 2 exOff = .ok f ∧ ∃ d T,
    (Chain.init f).forwardKinematics (B := 1) [fun _ => Real.pi] = .ok d ∧ d.get? n!"arm" = some T ∧ T 0 0 3 = 0 ∧
    ∀ K, sdfPose (exOff.joints[0]?.bind Jnt.pose) * K = 1 →
      (sdfPose (exOff.joints[0]?.bind Jnt.pose) * mkHom (rotAbout ![0, 0, 1] Real.pi) 0 * K) 0 3 = 2 := by
  obtain ⟨f, h1, h2⟩ := C27_sdf_tree exOff _ _ exOff_tree (by simp [exOff]) 2 (by simp [exOff])
  have hw := (C27_usable exOff _ _ f exOff_tree h2 (by simp [exOff]) (by simp) (by
    simp only [exOff, List.mem_singleton, forall_eq]
    intro h0
    simpa using congrFun h0 2)).1
  have hm : (movingJoints f).length = 1 := by
    have e : (Chain.init f).getJointParameterNames = (movingJoints f).map Joint.name := jointParamNames_eq f
    have := (C27_joint_names exOff _ _ f exOff_tree h2 hw (by simp [exOff])).length_eq
    rw [e] at this
    simpa [exOff, sdfKind] using this
  refine ⟨f, h1, ?_⟩
  have h0 : ∀ a : XYZ, elem a 0 = 1 := fun a => by
    rw [elem, ← axisAndAngleToMatrix33_eq_rotAbout, axisAndAngle_zero]
  obtain ⟨d, hd, h⟩ := C27_child_pose exOff _ _ f exOff_tree h2 hw (B := 1) [fun _ => Real.pi] (by simp [hm])
  obtain ⟨Tp, Tc, q, a1, a2, o, a3, a4⟩ := h exOff.joints[0] (by simp [exOff])
  refine ⟨d, Tc, hd, a2, ?_, ?_⟩
  · obtain ⟨d', q1, -, q3⟩ := C01_fk_is_path_product f hw (B := 1) [fun _ => Real.pi] (by simp [hm])
    rw [hd] at q1; cases q1
    obtain ⟨T, t1, t2⟩ := q3 [f] f .single rfl
    rw [h2.root_name] at t1
    have t1' : d.get? n!"base" = some Tp := a1
    have : Tp = T := Option.some.inj (t1'.symm.trans t1)
    subst this
    have hr : f.joint.offset = some 1 := h2.root_pose exOff.links[0] (by simp [exOff]) rfl
    have hT : Tp 0 = 1 := by
      rw [t2]
      simp [pathT, localT, (h2.links f (preorder_root_mem f)).2.1, hr, motion, h2.root_fixed]
    obtain ⟨dj, ho⟩ := a3 exOff.links[0] (by simp [exOff]) exOff.links[1] (by simp [exOff]) rfl rfl
    have ho : o = 1 := by simpa [exOff, sdfPoseZYX] using ho
    have kq : q.jtype = .revolute := by
      have := dj.kind; simp only [exOff, List.getElem_cons_zero, sdfKind, Option.some.injEq] at this; exact this.symm
    rw [a4, hT, ho]
    simp [motion, kq, mkHom]
  · intro K hK
    have hJ : sdfPose (exOff.joints[0]?.bind Jnt.pose) = mkHom 1 ![1, 0, 0] := by
      simp [exOff, sdfPose, rpyPose, h0]
    rw [hJ] at hK ⊢
    have hK' : K = mkHom 1 ![-1, 0, 0] := by
      have e : mkHom 1 ![-1, 0, 0] * mkHom (1 : M3) ![1, 0, 0] = 1 := by
        rw [mkHom_mul, ← mkHom_one]
        congr 1
        · simp
        · funext i; fin_cases i <;> simp
      calc K = (mkHom 1 ![-1, 0, 0] * mkHom (1 : M3) ![1, 0, 0]) * K := by rw [e, Matrix.one_mul]
        _ = mkHom 1 ![-1, 0, 0] := by rw [Matrix.mul_assoc, hK, Matrix.mul_one]
    rw [hK', mkHom_mul, mkHom_mul]
    simp [mkHom, rotAbout, rodrigues, cross_apply, Matrix.vecHead]
    norm_num

/-! ## C79 -/

/-- C79 (part): every written model that is a tree with at least one joint, whose joints are revolute, prismatic or fixed
and whose moving joints have both bounds or none, loads, when every link has an `<inertial>` and every joint an `<axis>`.
Missing from the full statement (every valid model): the cases below. -/
theorem C79_loads_partial (num : NumParser) (sh : Fl → Name) (m : Model)
    (names : List Name) (root : Name) (h : SdfTree m names root) (hne : m.joints ≠ []) (hm : SdfWritten num sh m)
    (fuel : ℕ) (hf : m.links.length ≤ fuel) : ∃ c, buildChain num fuel (sdfXml sh m) = .ok c :=
  let ⟨f, h, _⟩ := C27_document num sh m names root h hne hm fuel hf
  ⟨Chain.init f, h⟩

/-- `<sdf><model>..</model></sdf>` -/
def exDoc (cs : List Xml) : Xml := .elem n!"sdf" [(n!"version", n!"1.6")] none [.elem n!"model" [(n!"name", n!"m")] none cs]

/-- a link without `<inertial>`, which SDF does not require -/
def exBareLink (n : Name) : Xml := .elem n!"link" [(n!"name", n)] none []

/-- C79 is false: any model that contains a link without `<inertial>` is rejected, whatever else it contains. -/
theorem C79_no_inertial_fails (num : NumParser) (fuel : ℕ) (n : Name) (cs : List Xml) :
    buildChain num fuel (exDoc (exBareLink n :: cs)) = .error .parseError := by
  have h1 : readLink num (exBareLink n) = .error .parseError := rfl
  have h2 : ∀ cs', (Xml.elem n!"model" [(n!"name", n!"m")] none (exBareLink n :: cs')).aggregate n!"link" =
      exBareLink n :: (Xml.elem n!"model" [(n!"name", n!"m")] none cs').aggregate n!"link" := by
    intro cs'
    simp [Xml.aggregate, Xml.children, exBareLink, Xml.tag]
  have h3 : readModel num (.elem n!"model" [(n!"name", n!"m")] none (exBareLink n :: cs)) = .error .parseError := by
    unfold readModel
    rw [h2, List.mapM_cons, h1]
    rfl
  have h4 : (exDoc (exBareLink n :: cs)).scalar n!"model" = some (.elem n!"model" [(n!"name", n!"m")] none (exBareLink n :: cs)) := by
    simp [exDoc, Xml.scalar, Xml.children, Xml.tag]
  simp only [buildChain, readSdf, h4, PK.optional, h3, error_bind]

/-- a fixed joint without `<axis>`, which SDF does not require -/
def exNoAxis (a b : Name) : Xml := .elem n!"joint" [(n!"name", n!"j"), (n!"type", n!"fixed")] none
  [textElem n!"parent" a, textElem n!"child" b]

/-- C79 is false: any model with links that can be read and a fixed joint without `<axis>` is rejected. -/
theorem C79_no_axis_fails (num : NumParser) (sh : Fl → Name) (ls : List Lnk)
    (hl : ∀ l ∈ ls, SdfLinkWritten num sh l) (a b : Name) (fuel : ℕ) :
    buildChain num fuel (exDoc (ls.map (sdfLinkXml sh) ++ [exNoAxis a b])) = .error .parseError := by
  set md : Xml := .elem n!"model" [(n!"name", n!"m")] none (ls.map (sdfLinkXml sh) ++ [exNoAxis a b]) with hmd
  have hch : md.children = ls.map (sdfLinkXml sh) ++ [exNoAxis a b] := by
    rw [hmd]; unfold Xml.children
    rw [List.filter_eq_self]
    intro c hc
    rcases List.mem_append.1 hc with hc | hc
    · obtain ⟨x, _, rfl⟩ := List.mem_map.1 hc; rfl
    · rw [List.mem_singleton.1 hc]; rfl
  have tl : ∀ l, (sdfLinkXml sh l).tag = n!"link" := fun l => rfl
  have tj : (exNoAxis a b).tag = n!"joint" := rfl
  have g1 : md.aggregate n!"link" = ls.map (sdfLinkXml sh) := by
    unfold Xml.aggregate
    rw [hch, List.filter_append, List.filter_map, List.filter_eq_self.2]
    · simp [tj]
    · intro a _; simp [tl]
  have g2 : md.aggregate n!"joint" = [exNoAxis a b] := by
    unfold Xml.aggregate
    rw [hch, List.filter_append, List.filter_map, List.filter_eq_nil_iff.2]
    · simp [tj]
    · intro a _; simp [tl]
  have e1 : (ls.map (sdfLinkXml sh)).mapM (readLink num) = .ok ls := by
    rw [List.mapM_map, mapM_ok_map _ id]
    · simp
    · intro l hl'
      exact readLink_xml (hl l hl')
  have h1 : readJoint num (exNoAxis a b) = .error .parseError := rfl
  have h4 : (exDoc (ls.map (sdfLinkXml sh) ++ [exNoAxis a b])).scalar n!"model" = some md := by
    simp [exDoc, Xml.scalar, Xml.children, Xml.tag, hmd]
  simp only [buildChain, readSdf, h4, PK.optional, readModel, g1, e1, g2, ok_bind, List.mapM_cons, h1, error_bind]

/-- C79 is false: a model of a single link, which is a tree, raises UnboundLocalError. -/
theorem C79_single_link_fails (num : NumParser) (sh : Fl → Name) (l : Lnk) (hl : SdfLinkWritten num sh l)
    (n : Name) (hn : l.name = some n) (fuel : ℕ) :
    SdfTree ⟨[l], []⟩ [n] n ∧
    buildChain num fuel (sdfXml sh ⟨[l], []⟩) = .error .unboundLocal := by
  constructor
  · refine ⟨by simp [hn], ⟨by simp, by simp, by simp, by simp, by simp, by simp, ?_⟩, by simp, by simp⟩
    intro l hl
    simp only [List.mem_singleton] at hl
    exact ⟨0, hl ▸ .here⟩
  · have := readSdf_xml (num := num) (sh := sh) (m := ⟨[l], []⟩) ⟨by simpa using hl, by simp⟩
    simp only [buildChain, this, ok_bind]
    rfl

/-- C79 is false: a model whose base is fixed to `world` by a joint, as SDF allows, raises KeyError. -/
theorem C79_world_fails (num : NumParser) (sh : Fl → Name) (l : Lnk) (hl : SdfLinkWritten num sh l)
    (hz : ∀ i : Fin 3, Written num sh (.fin ((![0, 0, 1] : V3) i)))
    (n : Name) (ln : l.name = some n) (hn : n ≠ n!"world") (fuel : ℕ) :
    buildChain num fuel (sdfXml sh ⟨[l],
      [⟨some n!"j", some n!"fixed", n!"world", n, ![0, 0, 1], none, none, none⟩]⟩) = .error .keyError := by
  have := readSdf_xml (num := num) (sh := sh) (m := ⟨[l],
      [⟨some n!"j", some n!"fixed", n!"world", n, ![0, 0, 1], none, none, none⟩]⟩)
      ⟨by simpa using hl, by simp only [List.mem_singleton, forall_eq]; exact ⟨by simp [PoseWritten], hz, by simp, by simp⟩⟩
  simp only [buildChain, this, ok_bind, buildRoot]
  have h1 : rootName Jnt.parent Jnt.child [⟨some n!"j", some n!"fixed", n!"world", n, ![0, 0, 1], none, none, none⟩] = some n!"world" := rfl
  simp only [h1, ok_bind]
  have h2 : lookupLink (Model.linkMap ⟨[l],
      [⟨some n!"j", some n!"fixed", n!"world", n, ![0, 0, 1], none, none, none⟩]⟩) n!"world" = .error .keyError := by
    simp only [lookupLink, Model.linkMap, List.foldl_cons, List.foldl_nil]
    have : (Dict.set ([] : Dict (Option Name) Lnk) l.name l).get? (some n!"world") = none := by
      simp [Dict.set, Dict.get?, hn, ln]
    rw [this]
  rw [h2, error_bind, error_bind]

/-- a link that shows a mesh the way SDF requires, by `<uri>` -/
def exUriLink (sh : Fl → Name) (i : Inertial) (n uri : Name) : Xml := .elem n!"link" [(n!"name", n)] none
  [sdfInertialXml sh i, .elem n!"visual" [(n!"name", n!"v")] none [.elem n!"geometry" [] none
    [.elem n!"mesh" [] none [textElem n!"uri" uri]]]]

/-- C79 is false: any model that shows a mesh the way SDF says, by `<uri>`, is rejected. -/
theorem C79_mesh_uri_fails (num : NumParser) (sh : Fl → Name) (i : Inertial) (h1 : Written num sh i.mass)
    (h2 : ∀ k, Written num sh (i.inertia k)) (h3 : PoseWritten num sh i.pose) (fuel : ℕ) (n uri : Name) (cs : List Xml) :
    buildChain num fuel (exDoc (exUriLink sh i n uri :: cs)) = .error .parseError := by
  have r : readLink num (exUriLink sh i n uri) = .error .parseError := by
    have a : (exUriLink sh i n uri).scalar n!"inertial" = some (sdfInertialXml sh i) := rfl
    have b : (exUriLink sh i n uri).scalar n!"pose" = none := rfl
    have c : (exUriLink sh i n uri).aggregate n!"visual" = [.elem n!"visual" [(n!"name", n!"v")] none
      [.elem n!"geometry" [] none [.elem n!"mesh" [] none [textElem n!"uri" uri]]]] := rfl
    have d : ∀ v : Xml, v = .elem n!"visual" [(n!"name", n!"v")] none
      [.elem n!"geometry" [] none [.elem n!"mesh" [] none [textElem n!"uri" uri]]] → readVisual num v = .error .parseError := by
      rintro v rfl; rfl
    unfold readLink
    rw [a, b, c]
    simp only [required, ok_bind, readInertial_xml h1 h2 h3, PK.optional, pure_ok, List.mapM_cons, d _ rfl, error_bind]
  have h2 : ∀ cs', (Xml.elem n!"model" [(n!"name", n!"m")] none (exUriLink sh i n uri :: cs')).aggregate n!"link" =
      exUriLink sh i n uri :: (Xml.elem n!"model" [(n!"name", n!"m")] none cs').aggregate n!"link" := by
    intro cs'
    simp [Xml.aggregate, Xml.children, exUriLink, Xml.tag]
  have h3 : readModel num (.elem n!"model" [(n!"name", n!"m")] none (exUriLink sh i n uri :: cs)) = .error .parseError := by
    unfold readModel
    rw [h2, List.mapM_cons, r]
    rfl
  have h4 : (exDoc (exUriLink sh i n uri :: cs)).scalar n!"model" =
      some (.elem n!"model" [(n!"name", n!"m")] none (exUriLink sh i n uri :: cs)) := by
    simp [exDoc, Xml.scalar, Xml.children, Xml.tag]
  simp only [buildChain, readSdf, h4, PK.optional, h3, error_bind]

/-! ## C80 -/

/-- C80 (part): a moving joint with both bounds gets them and a joint without `<limit>` gets the infinite range, at its
position in the joint parameter names.  `SdfTree.bounds` is the part that is missing: a `<limit>` with one bound. -/
theorem C80_limits_partial (m : Model) (names : List Name) (root : Name) (h : SdfTree m names root) (hne : m.joints ≠ [])
    (fuel : ℕ) (hf : m.links.length ≤ fuel) :
    ∃ f, buildRoot fuel m = .ok f ∧ ∀ j ∈ m.joints, sdfKind j.type ≠ some .fixed →
      ∃ i : ℕ, (Chain.init f).getJointParameterNames[i]? = some j.name ∧
        (Chain.init f).low[i]? = some ((j.limit.bind Limit.lower).getD .ninf) ∧
        (Chain.init f).high[i]? = some ((j.limit.bind Limit.upper).getD .pinf) := by
  obtain ⟨f, h1, h2⟩ := C27_sdf_tree m names root h hne fuel hf
  refine ⟨f, h1, fun j hj ht => ?_⟩
  obtain ⟨lp, hlp, elp, _⟩ := lookup_ok h (h.tree.parent_mem j hj)
  obtain ⟨lc, hlc, elc, _⟩ := lookup_ok h (h.tree.child_mem j hj)
  obtain ⟨p, hp, g, hg, _, _, d⟩ := h2.joints j hj
  have d := d lp hlp lc hlc elp elc
  have mv : Moving g.joint := fun e => ht (by rw [d.kind, e])
  obtain ⟨i, e1, e2, e3⟩ := limit_entry f Joint.limits g.joint
    (mem_movingJoints.2 ⟨mv, g, preorder_children hp hg, rfl⟩)
  refine ⟨i, by rw [e1, d.name], ?_, ?_⟩
  · refine e2.trans ?_
    rw [d.limits mv]
    cases hl : j.limit with
    | none => rfl
    | some l =>
      obtain ⟨b1, b2⟩ := h.bounds j hj ht l hl
      obtain ⟨y, hy⟩ := Option.ne_none_iff_exists'.1 b1
      obtain ⟨z, hz⟩ := Option.ne_none_iff_exists'.1 b2
      simp [hy, hz]
  · refine e3.trans ?_
    rw [d.limits mv]
    cases hl : j.limit with
    | none => rfl
    | some l =>
      obtain ⟨b1, b2⟩ := h.bounds j hj ht l hl
      obtain ⟨y, hy⟩ := Option.ne_none_iff_exists'.1 b1
      obtain ⟨z, hz⟩ := Option.ne_none_iff_exists'.1 b2
      simp [hy, hz]

/-- two links and a revolute joint with the given limit -/
noncomputable def exLim (l : Option Limit) : Model :=
  ⟨[⟨some n!"a", none, [], [], exInertial⟩, ⟨some n!"b", none, [], [], exInertial⟩],
   [⟨some n!"j", some n!"revolute", n!"a", n!"b", ![0, 0, 1], l, none, none⟩]⟩

theorem exLim_tree (l : Option Limit) (hl : ∀ m, l = some m → m.lower ≠ none ∧ m.upper ≠ none) :
    SdfTree (exLim l) [n!"a", n!"b"] n!"a" := by
  refine ⟨rfl, ⟨by simp, by simp, by simp [exLim], by simp [exLim], by simp [exLim], by simp [exLim], ?_⟩,
    by simp [exLim, sdfKind], by simpa [exLim] using fun _ => hl⟩
  intro n hn
  simp only [List.mem_cons, List.not_mem_nil, or_false] at hn
  rcases hn with rfl | rfl
  · exact ⟨0, .here⟩
  · exact ⟨1, .step 0 ((exLim l).joints[0]'(by simp [exLim])) (by simp [exLim]) .here⟩

/-- limits ±2, and no limits -/
example : (∃ f, buildRoot 2 (exLim (some ⟨some (.fin (-2)), some (.fin 2)⟩)) = .ok f ∧
      ∃ i : ℕ, (Chain.init f).low[i]? = some (.fin (-2)) ∧ (Chain.init f).high[i]? = some (.fin 2)) ∧
    ∃ f, buildRoot 2 (exLim none) = .ok f ∧
      ∃ i : ℕ, (Chain.init f).low[i]? = some .ninf ∧ (Chain.init f).high[i]? = some .pinf := by
  constructor
  · obtain ⟨f, h1, h2⟩ := C80_limits_partial (exLim (some ⟨some (.fin (-2)), some (.fin 2)⟩)) _ _
      (exLim_tree _ (by rintro m ⟨⟩; simp)) (by simp [exLim]) 2 (by simp [exLim])
    obtain ⟨i, _, a, b⟩ := h2 _ (List.mem_singleton.2 rfl) (by simp [sdfKind])
    exact ⟨f, h1, i, a, b⟩
  · obtain ⟨f, h1, h2⟩ := C80_limits_partial (exLim none) _ _
      (exLim_tree _ (by rintro m ⟨⟩)) (by simp [exLim]) 2 (by simp [exLim])
    obtain ⟨i, _, a, b⟩ := h2 _ (List.mem_singleton.2 rfl) (by simp [sdfKind])
    exact ⟨f, h1, i, a, b⟩

/-- C80 is false: a revolute joint with only an upper bound, or only a lower one, makes loading raise TypeError. -/
theorem C80_one_bound_fails (y : Fl) (fuel : ℕ) : buildRoot (fuel + 2) (exLim (some ⟨none, some y⟩)) = .error .typeError ∧
    buildRoot (fuel + 2) (exLim (some ⟨some y, none⟩)) = .error .typeError := by
  have key : ∀ l, (∀ a b, l ≠ ⟨some a, some b⟩) → buildRoot (fuel + 2) (exLim (some l)) = .error .typeError := by
    intro l hl
    have hr : rootName Jnt.parent Jnt.child (exLim (some l)).joints = some n!"a" := rfl
    have la : lookupLink (exLim (some l)).linkMap n!"a" = .ok ⟨some n!"a", none, [], [], exInertial⟩ := rfl
    have lb : lookupLink (exLim (some l)).linkMap n!"b" = .ok ⟨some n!"b", none, [], [], exInertial⟩ := rfl
    obtain ⟨w, hw, _⟩ := convertLink_ok ⟨some n!"a", none, [], [], exInertial⟩
    obtain ⟨o, _, ho, _⟩ := inverse_compose (sdfPoseZYX none) (sdfPoseZYX none) (sdfPoseZYX_rigid _)
    have hlim : convertLimit .revolute (some l) = .error .typeError := by
      unfold convertLimit
      split
      · next e => cases e
      · next a b e => exact absurd (Option.some.inj e) (hl a b)
      · rfl
    have hc : convertJoint (exLim (some l)).linkMap
        ⟨some n!"j", some n!"revolute", n!"a", n!"b", ![0, 0, 1], some l, none, none⟩ = .error .typeError := by
      simp only [convertJoint, la, lb, ok_bind, C28_conversion, ho,
        jointTypeMap_ok (show sdfKind (some n!"revolute") = some .revolute from rfl), hlim]
      rfl
    have hfl : ((exLim (some l)).joints.filter fun j => decide (j.parent = n!"a")) =
        [⟨some n!"j", some n!"revolute", n!"a", n!"b", ![0, 0, 1], some l, none, none⟩] := rfl
    simp only [buildRoot, hr, la, ok_bind, C28_conversion, hw, buildRecurse, hfl, List.mapM_cons, hc, error_bind]
  exact ⟨key _ (by rintro a b ⟨⟩), key _ (by rintro a b ⟨⟩)⟩

end Sdf
end PK
