import Verif.Props.Urdf
import Verif.Props.Serial

/-!
# Further properties of the URDF loader: C74 velocity and effort limits, C75 mimic joints, C77 serial chains
-/

namespace PK
open Spec Matrix Urdf

/-! ## C74 -/

/-- C74: the chain loaded from a description reports, at the position of each moving joint in the joint parameter names,
the symmetric velocity range and the symmetric effort range declared by its `<limit>`, and the infinite range when the
joint has none. -/
theorem C74_velocity_effort (r : Robot) (root : Name) (h : UrdfTree r root) (hne : r.joints ≠ [])
    (hk : ∀ j ∈ r.joints, urdfKind j.type ≠ none) (fuel : ℕ) (hf : r.links.length ≤ fuel) :
    ∃ f, buildRoot fuel r = .ok f ∧ ∀ j ∈ r.joints, j.type ≠ n!"fixed" →
      ∃ i : ℕ, (Chain.init f).getJointParameterNames[i]? = some (some j.name) ∧
        (Chain.init f).getJointVelocityLimits.1[i]? = some ((j.limit.map fun m => m.velocity.neg).getD .ninf) ∧
        (Chain.init f).getJointVelocityLimits.2[i]? = some ((j.limit.map fun m => m.velocity).getD .pinf) ∧
        (Chain.init f).getJointEffortLimits.1[i]? = some ((j.limit.map fun m => m.effort.neg).getD .ninf) ∧
        (Chain.init f).getJointEffortLimits.2[i]? = some ((j.limit.map fun m => m.effort).getD .pinf) := by
  obtain ⟨f, h1, h2⟩ := C22_urdf_tree r root h hne hk fuel hf
  refine ⟨f, h1, fun j hj ht => ?_⟩
  obtain ⟨p, hp, g, hg, _, e, d⟩ := h2.joints j hj
  have hm := declared_moving (preorder_children hp hg) d ht
  obtain ⟨i, hi⟩ := List.mem_iff_getElem?.1 hm
  have e1 : (Chain.init f).root.getJoints true = movingJoints f := getJoints_true f
  have e2 : (Chain.init f).getJointParameterNames = (movingJoints f).map Joint.name := jointParamNames_eq f
  refine ⟨i, ?_, ?_, ?_, ?_, ?_⟩
  · rw [e2, List.getElem?_map, hi, Option.map_some, d.name]
  all_goals
    simp only [Chain.getJointVelocityLimits, Chain.getJointEffortLimits, e1, limitArrays, List.getElem?_map, hi,
      Option.map_some, d.velocity, d.effort]
    cases j.limit <;> rfl

/-- the prismatic joint of the example arm has velocity range ±1 and effort range ±5, its continuous joint has neither -/
example : ∃ f, buildRoot 900 exRobot = .ok f ∧
    (∃ i : ℕ, (Chain.init f).getJointParameterNames[i]? = some (some n!"j2") ∧
      (Chain.init f).getJointVelocityLimits.1[i]? = some (.fin (-1)) ∧
      (Chain.init f).getJointVelocityLimits.2[i]? = some (.fin 1) ∧
      (Chain.init f).getJointEffortLimits.1[i]? = some (.fin (-5)) ∧
      (Chain.init f).getJointEffortLimits.2[i]? = some (.fin 5)) ∧
    ∃ i : ℕ, (Chain.init f).getJointParameterNames[i]? = some (some n!"j1") ∧
      (Chain.init f).getJointVelocityLimits.1[i]? = some .ninf ∧
      (Chain.init f).getJointVelocityLimits.2[i]? = some .pinf ∧
      (Chain.init f).getJointEffortLimits.1[i]? = some .ninf ∧
      (Chain.init f).getJointEffortLimits.2[i]? = some .pinf := by
  obtain ⟨f, h1, h2⟩ := C74_velocity_effort exRobot n!"base" exRobot_tree (by simp [exRobot])
    (by simp [exRobot, urdfKind]) 900 (by simp [exRobot])
  exact ⟨f, h1, h2 exRobot.joints[0] (by simp [exRobot]) (by simp [exRobot]),
    h2 exRobot.joints[2] (by simp [exRobot]) (by simp [exRobot])⟩

/-! ## C77 -/

section
variable {J : Type} {par chi : J → Name} {joints : List J}

theorem below_mem {f g : Frame} (h : Below f g) : ∀ root : Frame, f ∈ preorder root → g ∈ preorder root := by
  induction h with
  | refl => exact fun _ h => h
  | child g c _ hc ih => exact fun root hf => preorder_children (ih root hf) hc

/-- A path of joints in the description is a path of frames in the tree. -/
theorem frame_path {f rf : Frame} {Q : J → Joint → Prop} (hn : ((preorder f).map Frame.name).Nodup)
    (hj : ∀ j ∈ joints, ∃ p ∈ preorder f, ∃ g ∈ p.children, p.name = par j ∧ g.name = chi j ∧ Q j g.joint)
    (hr : rf ∈ preorder f) {b : Name} {js : List J} (h : DescPath par chi joints rf.name b js) :
    ∃ p fe, IsPath rf p ∧ p.getLast? = some fe ∧ fe ∈ preorder f ∧ fe.name = b ∧ p.map Frame.name = rf.name :: js.map chi ∧
      List.Forall₂ Q js (p.tail.map Frame.joint) := by
  induction h with
  | nil => exact ⟨[rf], rf, .single, rfl, hr, rfl, rfl, .nil⟩
  | snoc js j _ hmem ih =>
    obtain ⟨p, fe, h1, h2, h3, h4, h5, h6⟩ := ih
    obtain ⟨q, hq, g, hg, e1, e2, e3⟩ := hj j hmem
    have : q = fe := List.inj_on_of_nodup_map hn hq h3 (by rw [e1, h4])
    subst this
    obtain ⟨p', rfl⟩ := List.getLast?_eq_some_iff.1 h2
    refine ⟨p' ++ [q] ++ [g], g, .snoc p' q g h1 hg, by simp, preorder_children hq hg, e2, ?_, ?_⟩
    · rw [List.map_append, h5]; simp [e2]
    · have ht : (p' ++ [q] ++ [g]).tail = (p' ++ [q]).tail ++ [g] := by
        rw [List.tail_append_of_ne_nil (by simp)]
      rw [ht, List.map_append]
      exact List.rel_append h6 (.cons e3 .nil)

/-- A frame below another is reached by a path of joints. -/
theorem desc_path {f rf fe : Frame}
    (hc : ∀ g ∈ preorder f, g.children.map Frame.name = (joints.filter fun j => decide (par j = g.name)).map chi)
    (hr : rf ∈ preorder f) (h : Below rf fe) : ∃ js, DescPath par chi joints rf.name fe.name js := by
  induction h with
  | refl => exact ⟨[], .nil⟩
  | child g c hb hgc ih =>
    obtain ⟨js, hjs⟩ := ih
    have hg := below_mem hb f hr
    have : c.name ∈ g.children.map Frame.name := List.mem_map_of_mem hgc
    rw [hc g hg] at this
    obtain ⟨j, hj, e⟩ := List.mem_map.1 this
    obtain ⟨hj, hp⟩ := List.mem_filter.1 hj
    have hp : par j = g.name := of_decide_eq_true hp
    exact ⟨js ++ [j], e ▸ .snoc js j (hp ▸ hjs) hj⟩

theorem below_of_path {rf fe : Frame} {p : List Frame} (h : IsPath rf p) (hl : p.getLast? = some fe) : Below rf fe := by
  induction h generalizing fe with
  | single => cases hl; exact .refl
  | snoc p f c _ hc ih =>
    simp only [List.getLast?_append, List.getLast?_singleton, Option.some_or, Option.some.injEq] at hl
    subst hl
    exact .child f _ (ih (by simp)) hc

/-- Serial chains of a tree that was built from a description. -/
theorem serial_desc {f : Frame} {links : List Name} {root : Name} {Q : J → Joint → Prop} (hw : WF f) (hroot : f.name = root)
    (hfr : ((preorder f).map Frame.name).Perm links)
    (hc : ∀ g ∈ preorder f, g.children.map Frame.name = (joints.filter fun j => decide (par j = g.name)).map chi)
    (hj : ∀ j ∈ joints, ∃ p ∈ preorder f, ∃ g ∈ p.children, p.name = par j ∧ g.name = chi j ∧ Q j g.joint)
    (rootArg endLink : Name) :
    (∀ js, startLink root rootArg ∈ links → DescPath par chi joints (startLink root rootArg) endLink js →
      ∃ s qs, SerialChain.init f endLink rootArg = .ok s ∧ List.Forall₂ Q js qs ∧
        s.chain.getFrameNames false = startLink root rootArg :: js.map chi ∧
        s.chain.getJoints = qs.filter (fun q => decide (Moving q)) ∧
        s.chain.getJointParameterNames = (qs.filter fun q => decide (Moving q)).map Joint.name) ∧
    (SerialChain.init f endLink rootArg = .error .valueError ↔ rootArg ≠ [] ∧ rootArg ∉ links) ∧
    (SerialChain.init f endLink rootArg = .error .keyError ↔ startLink root rootArg ∈ links ∧
      ∀ js, ¬ DescPath par chi joints (startLink root rootArg) endLink js) := by
  have hfm : f ∈ preorder f := by rw [preorder_eq]; simp
  have hmem : ∀ n, n ∈ links ↔ ∃ g ∈ preorder f, g.name = n := fun n => by
    rw [← hfr.mem_iff, List.mem_map]
  have hst : ∀ rf, StartsAt f rf rootArg ↔ rf ∈ preorder f ∧ rf.name = startLink root rootArg := by
    intro rf
    unfold StartsAt startLink
    by_cases h0 : rootArg = []
    · simp only [h0, if_true, ne_eq, not_true_eq_false, false_and, or_false, true_and]
      constructor
      · rintro ⟨h1, rfl⟩; exact ⟨h1, hroot⟩
      · rintro ⟨h1, h2⟩; exact ⟨h1, List.inj_on_of_nodup_map hw.names_nodup h1 hfm (h2.trans hroot.symm)⟩
    · simp [h0]
  obtain ⟨o1, o2, o3⟩ := C20_construction_outcome f rootArg endLink hw
  refine ⟨?_, ?_, ?_⟩
  · intro js hs hp
    obtain ⟨rf, hrf, e⟩ := (hmem _).1 hs
    rw [← e] at hp
    obtain ⟨p, fe, h1, h2, h3, h4, h5, h6⟩ := frame_path hw.names_nodup hj hrf hp
    obtain ⟨s, q1, -, q3, q4, q5, -⟩ := C20_frames_and_joints f rf fe rootArg p hw ((hst rf).2 ⟨hrf, e⟩) h1 h2
    exact ⟨s, _, h4 ▸ q1, h6, by rw [q3, h5, e], q4, q5⟩
  · rw [o2]
    refine and_congr_right fun _ => ?_
    rw [hmem]
    push Not
    rfl
  · rw [o3]
    constructor
    · rintro ⟨rf, hs, hno⟩
      obtain ⟨h1, h2⟩ := (hst rf).1 hs
      refine ⟨(hmem _).2 ⟨rf, h1, h2⟩, fun js hp => ?_⟩
      rw [← h2] at hp
      obtain ⟨p, fe, a1, a2, a3, a4, -⟩ := frame_path hw.names_nodup hj h1 hp
      exact hno fe (below_of_path a1 a2) a4
    · rintro ⟨hs, hno⟩
      obtain ⟨rf, hrf, e⟩ := (hmem _).1 hs
      refine ⟨rf, (hst rf).2 ⟨hrf, e⟩, fun fe hb he => ?_⟩
      obtain ⟨js, hjs⟩ := desc_path (par := par) (chi := chi) (joints := joints) hc hrf hb
      rw [e, he] at hjs
      exact hno js hjs

end

/-- C77: `build_serial_chain_from_urdf` on the document of a tree.  When the joints `js` lead from the start link (the
tree's root for `""`) down to the end link, the result has exactly the links on that path, and its joint parameters are
the declared moving joints among `js`, in this order.  An unknown root link raises ValueError; an end link that is not
below the start link raises KeyError. -/
theorem C77_serial_urdf (num : NumParser) (sh : Fl → Name) (r : Robot) (root : Name) (h : UrdfTree r root)
    (hne : r.joints ≠ []) (hk : ∀ j ∈ r.joints, urdfKind j.type ≠ none)
    (hd : RobotWritten num sh r) (hn : GoodNames r) (hax : ∀ j ∈ r.joints, ∀ a, j.axis = some a → a ≠ 0)
    (fuel : ℕ) (hf : r.links.length ≤ fuel) (rootArg endLink : Name) :
    (∀ js, startLink root rootArg ∈ r.links.map Lnk.name →
      DescPath Jnt.parent Jnt.child r.joints (startLink root rootArg) endLink js →
      ∃ s qs, buildSerialChain num fuel (robotXml sh r) endLink rootArg = .ok s ∧ List.Forall₂ Declared js qs ∧
        s.chain.getFrameNames false = startLink root rootArg :: js.map Jnt.child ∧
        s.chain.getJoints = qs.filter (fun q => decide (Moving q)) ∧
        s.chain.getJointParameterNames = (qs.filter fun q => decide (Moving q)).map Joint.name) ∧
    (buildSerialChain num fuel (robotXml sh r) endLink rootArg = .error .valueError ↔
      rootArg ≠ [] ∧ rootArg ∉ r.links.map Lnk.name) ∧
    (buildSerialChain num fuel (robotXml sh r) endLink rootArg = .error .keyError ↔
      startLink root rootArg ∈ r.links.map Lnk.name ∧
      ∀ js, ¬ DescPath Jnt.parent Jnt.child r.joints (startLink root rootArg) endLink js) := by
  obtain ⟨f, h1, h2⟩ := C22_document num sh r root h hne hk hd fuel hf
  have hw := (C22_usable r root f h h2 hn hax).1
  have e : buildSerialChain num fuel (robotXml sh r) endLink rootArg = SerialChain.init f endLink rootArg := by
    simp only [buildSerialChain, h1, ok_bind]; rfl
  rw [e]
  exact serial_desc hw h2.root_name h2.frames h2.children h2.joints rootArg endLink

theorem exSmall_tree : UrdfTree exSmall n!"a" := by
  refine ⟨by simp [exSmall], by simp [exSmall], by simp [exSmall], by simp [exSmall], by simp [exSmall],
    by simp [exSmall], ?_⟩
  intro l hl
  simp only [exSmall, List.map_cons, List.map_nil, List.mem_cons, List.not_mem_nil, or_false] at hl
  rcases hl with rfl | rfl
  · exact ⟨0, .here⟩
  · exact ⟨1, .step 0 exSmall.joints[0] (by simp [exSmall]) .here⟩

/-- on the two-link robot: the path from `a` to `b`, an unknown root, and an end link above the root -/
example : (∃ s, buildSerialChain exNum 9 (robotXml exShow exSmall) n!"b" [] = .ok s ∧
      s.chain.getFrameNames false = [n!"a", n!"b"] ∧ s.chain.getJointParameterNames = [some n!"j"]) ∧
    buildSerialChain exNum 9 (robotXml exShow exSmall) n!"b" n!"x" = .error .valueError ∧
    buildSerialChain exNum 9 (robotXml exShow exSmall) n!"a" n!"b" = .error .keyError := by
  have key := fun a e => C77_serial_urdf exNum exShow exSmall n!"a" exSmall_tree (by simp [exSmall])
    (by simp [exSmall, urdfKind]) exSmall_written ⟨by simp [exSmall], by simp [exSmall]⟩
    (by simp only [exSmall, List.mem_singleton]; rintro j rfl a ⟨⟩ h0; simpa using congrFun h0 0) 9 (by simp [exSmall]) a e
  refine ⟨?_, (key n!"x" n!"b").2.1.2 (by simp [exSmall]), (key n!"b" n!"a").2.2.2 ⟨by simp [exSmall, startLink], ?_⟩⟩
  · obtain ⟨s, qs, h1, h2, h3, h4, h5⟩ := (key [] n!"b").1 exSmall.joints (by simp [exSmall, startLink])
      (.snoc [] exSmall.joints[0] .nil (by simp [exSmall]))
    refine ⟨s, h1, h3, ?_⟩
    simp only [exSmall, List.forall₂_cons_left_iff, List.forall₂_nil_left_iff] at h2
    obtain ⟨q, _, d, rfl, rfl⟩ := h2
    have hm : Moving q := by
      have := d.kind
      simp only [urdfKind, Option.some.injEq] at this
      unfold Moving; rw [← this]; simp
    rw [h5]
    simp [hm, d.name]
  · rintro js hp
    have : ∀ x, DescPath Jnt.parent Jnt.child exSmall.joints (startLink n!"a" n!"b") x js → x = n!"b" := by
      intro x hx
      cases hx with
      | nil => rfl
      | snoc js j _ hj =>
        simp only [exSmall, List.mem_singleton] at hj
        subst hj; rfl
    simpa using this _ hp

/-! ## C75 -/

/-- C75 (part): when the joint tensor gives every moving joint, mimic or not, its value `val`, every link is where URDF puts
it: the pose of a joint's child in its parent is the origin followed by the motion at the joint's value.  When no joint has a `<mimic>`, the joint
parameters are the moving joints that are not mimic joints.  Missing: with a mimic joint the parameters should not contain
it and it should follow its leader, which is false, see `C75_fails`. -/
theorem C75_mimic_partial (r : Robot) (root : Name) (f : Frame) (h : UrdfTree r root) (hl : Loaded r root f)
    (hw : WF f) (hlo : ∀ l ∈ r.links, l.origin = none) {B : ℕ} (th : List (Fin B → ℝ))
    (hth : th.length = (movingJoints f).length) (val : Fin B → Name → ℝ)
    (hv : ∀ b (i : ℕ) n c, (Chain.init f).getJointParameterNames[i]? = some (some n) → th[i]? = some c → c b = val b n) :
    (∃ d, (Chain.init f).forwardKinematics th = .ok d ∧ ∀ j ∈ r.joints, ∃ Tp Tc q,
      d.get? j.parent = some Tp ∧ d.get? j.child = some Tc ∧ Declared j q ∧
      ∀ b, Tc b = Tp b * (originT j.origin * motion q (val b j.name))) ∧
    ((∀ j ∈ r.joints, j.mimic = none) → (r.joints.map Jnt.name).Nodup →
      ((Chain.init f).getJointParameterNames).Perm
        ((r.joints.filter fun j => decide (urdfKind j.type ≠ some .fixed) && j.mimic.isNone).map fun j => some j.name)) := by
  constructor
  · obtain ⟨d, h1, h2⟩ := C23_child_pose r root f h hl hw hlo th hth
    refine ⟨d, h1, fun j hj => ?_⟩
    obtain ⟨Tp, Tc, q, a1, a2, a3, a4, -⟩ := h2 j hj
    refine ⟨Tp, Tc, q, a1, a2, a3, fun b => ?_⟩
    rw [a4 b]
    by_cases hmq : q.jtype = .fixed
    · simp [motion, hmq]
    · obtain ⟨p, hp, g, hg, _, _, dg⟩ := hl.joints j hj
      have hgm : Moving g.joint := by
        intro hf
        have e1 := dg.kind
        have e2 := a3.kind
        rw [hf, e2] at e1
        exact hmq (Option.some.inj e1)
      have hmem : g.joint ∈ movingJoints f := mem_movingJoints.2 ⟨hgm, g, preorder_children hp hg, rfl⟩
      have e : (Chain.init f).getJointParameterNames = (movingJoints f).map Joint.name := jointParamNames_eq f
      have hin : q.name ∈ (movingJoints f).map Joint.name := by
        rw [a3.name, ← dg.name]; exact List.mem_map_of_mem hmem
      have hlt : column f q < th.length := by
        rw [hth, ← List.length_map (f := Joint.name)]; exact List.idxOf_lt_length_of_mem hin
      have hc := hv b (column f q) j.name (th[column f q]) (by
        rw [e, ← a3.name]; exact List.getElem?_idxOf hin) (by simp [hlt])
      have : colVal f th b q = val b j.name := by
        rw [← hc, colVal, List.getD_eq_getElem?_getD, List.getElem?_eq_getElem hlt]; rfl
      rw [this]
  · intro hno hj
    have := C22_joint_names r root f hl hw hj
    convert this using 2
    refine List.filter_congr fun j hj => ?_
    simp [hno j hj]

/-- two fingers on a base; the right one mimics the left one -/
noncomputable def exMimic : Robot where
  links := [⟨n!"b", none, [], [], none⟩, ⟨n!"l", none, [], [], none⟩, ⟨n!"r", none, [], [], none⟩]
  joints := [
    ⟨n!"jl", n!"prismatic", n!"b", n!"l", some ![1, 0, 0], none, some ⟨.fin 1, .fin 1, .fin 0, .fin 1⟩, none, none, none, none⟩,
    ⟨n!"jr", n!"prismatic", n!"b", n!"r", some ![1, 0, 0], none, some ⟨.fin 1, .fin 1, .fin 0, .fin 1⟩,
      some ⟨n!"jl", none, none⟩, none, none, none⟩]

theorem exMimic_tree : UrdfTree exMimic n!"b" := by
  refine ⟨by simp [exMimic], by simp [exMimic], by simp [exMimic], by simp [exMimic], by simp [exMimic],
    by simp [exMimic], ?_⟩
  intro l hl
  simp only [exMimic, List.map_cons, List.map_nil, List.mem_cons, List.not_mem_nil, or_false] at hl
  rcases hl with rfl | rfl | rfl
  · exact ⟨0, .here⟩
  · exact ⟨1, .step 0 exMimic.joints[0] (by simp [exMimic]) .here⟩
  · exact ⟨1, .step 0 exMimic.joints[1] (by simp [exMimic]) .here⟩

theorem exMimic_written : RobotWritten exNum exShow exMimic := by
  obtain ⟨w1, w0⟩ := exWritten
  refine ⟨?_, ?_, by simp [exMimic]⟩
  · simp only [exMimic, List.mem_cons, List.not_mem_nil, or_false]
    rintro l (rfl | rfl | rfl) <;> exact ⟨by simp [OriginWritten], by simp, by simp, by simp⟩
  simp only [exMimic, List.mem_cons, List.not_mem_nil, or_false]
  rintro j (rfl | rfl)
  · refine ⟨by simp [OriginWritten], ?_, ?_, by simp, by simp, by simp, by simp⟩
    · rintro a ⟨⟩ i; fin_cases i <;> first | exact w1 | exact w0
    · rintro l ⟨⟩; exact ⟨w0, w1, w1, w1⟩
  · refine ⟨by simp [OriginWritten], ?_, ?_, ?_, by simp, by simp, by simp⟩
    · rintro a ⟨⟩ i; fin_cases i <;> first | exact w1 | exact w0
    · rintro l ⟨⟩; exact ⟨w0, w1, w1, w1⟩
    · rintro m ⟨⟩; simp

theorem exMimic_axis : ∀ j ∈ exMimic.joints, ∀ a, j.axis = some a → a ≠ 0 := by
  simp only [exMimic, List.mem_cons, List.not_mem_nil, or_false]
  rintro j (rfl | rfl) a ⟨⟩ h0 <;> simpa using congrFun h0 0

/-- C75 is false: on the two fingers, whose joints and origins are the same and of which `r` mimics `l`, the mimic joint is a
joint parameter of its own, and there is a joint tensor for which forward kinematics puts the two fingers at different
places, which no joint values that obey the `<mimic>` element do. -/
theorem C75_fails : ∃ f, buildChain exNum 9 (robotXml exShow exMimic) = .ok (Chain.init f) ∧
    some n!"jr" ∈ (Chain.init f).getJointParameterNames ∧ (Chain.init f).nJoints = 2 ∧
    ∃ (th : List (Fin 1 → ℝ)) (d : Dict Name (Fin 1 → M4)) (Tl Tr : Fin 1 → M4),
      (Chain.init f).forwardKinematics th = .ok d ∧ d.get? n!"l" = some Tl ∧ d.get? n!"r" = some Tr ∧ Tl 0 ≠ Tr 0 ∧
      ∀ val, Mimics exMimic val → val n!"jl" = val n!"jr" := by
  obtain ⟨f, h1, h2⟩ := C22_document exNum exShow exMimic n!"b" exMimic_tree (by simp [exMimic])
    (by simp [exMimic, urdfKind]) exMimic_written 9 (by simp [exMimic])
  obtain ⟨hw, hrig⟩ := C22_usable exMimic _ f exMimic_tree h2 ⟨by simp [exMimic], by simp [exMimic]⟩ exMimic_axis
  have hp := C22_joint_names exMimic _ f h2 hw (by simp [exMimic])
  have hp' : (Chain.init f).getJointParameterNames.Perm [some n!"jl", some n!"jr"] := by
    convert hp using 1
    simp [exMimic, urdfKind]
  have e : (Chain.init f).getJointParameterNames = (movingJoints f).map Joint.name := jointParamNames_eq f
  have hlen : (movingJoints f).length = 2 := by
    have := hp'.length_eq
    rw [e, List.length_map] at this
    simpa using this
  refine ⟨f, h1, hp'.mem_iff.2 (by simp), ?_, ?_⟩
  · rw [(C07_columns f hw).2.1, hlen]
  · let val : Fin 1 → Name → ℝ := fun _ n => if n = n!"jr" then 1 else 0
    let th : List (Fin 1 → ℝ) := (movingJoints f).map fun q => fun b => val b (q.name.getD [])
    obtain ⟨⟨d, d1, d2⟩, -⟩ := C75_mimic_partial exMimic _ f exMimic_tree h2 hw (by simp [exMimic]) th (by simp [th]) val (by
      intro b i n c hn hc
      rw [e, List.getElem?_map] at hn
      rw [List.getElem?_map] at hc
      cases hq : (movingJoints f)[i]? with
      | none => rw [hq] at hn; cases hn
      | some q =>
        rw [hq] at hn hc
        simp only [Option.map_some, Option.some.injEq] at hn hc
        rw [← hc, hn]; rfl)
    obtain ⟨Tp, Tl, ql, a1, a2, a3, a4⟩ := d2 exMimic.joints[0] (by simp [exMimic])
    obtain ⟨Tp', Tr, qr, b1, b2, b3, b4⟩ := d2 exMimic.joints[1] (by simp [exMimic])
    have : Tp' = Tp := by
      have e' : d.get? n!"b" = some Tp := a1
      have e'' : d.get? n!"b" = some Tp' := b1
      rw [e'] at e''; exact (Option.some.inj e'').symm
    subst this
    refine ⟨th, d, Tl, Tr, d1, a2, b2, ?_, ?_⟩
    · obtain ⟨T, t1, t2⟩ : ∃ T, d.get? n!"b" = some T ∧ T 0 = 1 := by
        obtain ⟨d', q1, -, q3⟩ := C01_fk_is_path_product f hw th (by simp [th])
        rw [d1] at q1; cases q1
        obtain ⟨T, t1, t2⟩ := q3 [f] f .single rfl
        rw [h2.root_name] at t1
        refine ⟨T, t1, ?_⟩
        obtain ⟨l, hl, _, _, ho⟩ := h2.links f (preorder_root_mem f)
        have hlo : l.origin = none := by
          simp only [exMimic, List.mem_cons, List.not_mem_nil, or_false] at hl
          rcases hl with rfl | rfl | rfl <;> rfl
        rw [t2]
        simp [pathT, localT, ho, hlo, originT, h2.root_fixed, motion]
      have t1' : d.get? n!"b" = some Tp' := b1
      rw [t1] at t1'
      cases t1'
      rw [a4 0, b4 0, t2]
      have kl : ql.jtype = .prismatic := by
        have := a3.kind; simp only [exMimic, List.getElem_cons_zero, urdfKind, Option.some.injEq] at this; exact this.symm
      have kr : qr.jtype = .prismatic := by
        have := b3.kind
        simp only [exMimic, List.getElem_cons_succ, List.getElem_cons_zero, urdfKind, Option.some.injEq] at this; exact this.symm
      obtain ⟨cr, hcr, er⟩ := b3.axis ![1, 0, 0] rfl (by intro h0; simpa using congrFun h0 0)
      intro heq
      have h03 := congrFun (congrFun heq 0) 3
      simp [originT, exMimic, motion, kl, kr, mkHom, val, er] at h03
      exact hcr.ne h03
    · intro val hv
      have := hv exMimic.joints[1] (by simp [exMimic]) ⟨n!"jl", none, none⟩ rfl 1 0 rfl rfl
      simp only [one_mul, add_zero] at this
      exact this.symm

end PK
