import Verif.Lemmas.Xml
import Verif.Spec.Sdf

/-! # Reading a written SDF document -/

namespace PK
open Spec
namespace Sdf

theorem readPose_xml {num : NumParser} {sh : Fl → Name} {p : Pose}
    (h : ∀ i, Written num sh (.fin (p.xyz i)) ∧ Written num sh (.fin (p.rpy i))) :
    readPose num (sdfPoseXml sh p) = .ok p := by
  have e : pySplit (vecText sh p.xyz ++ [' '] ++ vecText sh p.rpy) =
      [sh (.fin (p.xyz 0)), sh (.fin (p.xyz 1)), sh (.fin (p.xyz 2)),
       sh (.fin (p.rpy 0)), sh (.fin (p.rpy 1)), sh (.fin (p.rpy 2))] := by
    unfold vecText
    simp only [List.append_assoc, List.cons_append, List.nil_append]
    rw [pySplit_cons _ _ (h 0).1.word, pySplit_cons _ _ (h 1).1.word, pySplit_cons _ _ (h 2).1.word,
      pySplit_cons _ _ (h 0).2.word, pySplit_cons _ _ (h 1).2.word, pySplit_last _ (h 2).2.word]
  have r1 : ∀ i, readReal num (sh (.fin (p.xyz i))) = .ok (p.xyz i) := fun i => by simp [readReal, (h i).1.1]
  have r2 : ∀ i, readReal num (sh (.fin (p.rpy i))) = .ok (p.rpy i) := fun i => by simp [readReal, (h i).2.1]
  have t : (sdfPoseXml sh p).text = some (vecText sh p.xyz ++ [' '] ++ vecText sh p.rpy) := rfl
  simp only [readPose, t, readVec, e, List.length_cons, List.length_nil, if_true, List.mapM_cons, List.mapM_nil, r1, r2,
    ok_bind, pure_ok]
  congr 1
  cases p
  congr 1 <;> funext i <;> fin_cases i <;> rfl

theorem optional_pose {num : NumParser} {sh : Fl → Name} {o : Option Pose} (h : PoseWritten num sh o) :
    optional (o.map (sdfPoseXml sh)) (readPose num) = .ok o := by
  cases o with
  | none => rfl
  | some p => simp only [Option.map_some, optional, readPose_xml (h p rfl), ok_bind, pure_ok]

theorem floatElem_head {num : NumParser} {sh : Fl → Name} {x : Fl} {n : Xml} {k : Name} (h : Written num sh x)
    (hs : n.scalar k = some (textElem k (sh x))) : floatElem num n k = .ok x := by
  have t : (textElem k (sh x)).text = some (sh x) := rfl
  simp only [floatElem, hs, required, ok_bind, t, readFloat, h.1]

theorem optional_float {num : NumParser} {sh : Fl → Name} {x : Option Fl} (k : Name) (h : ∀ y, x = some y → Written num sh y) :
    optional (x.map fun y => textElem k (sh y)) (fun c => readFloat num c.text) = .ok x := by
  refine optional_map _ _ _ fun y hy => ?_
  have t : (textElem k (sh y)).text = some (sh y) := rfl
  simp only [t, readFloat, (h y hy).1]

theorem readInertial_xml {num : NumParser} {sh : Fl → Name} {i : Inertial} (h1 : Written num sh i.mass)
    (h2 : ∀ k, Written num sh (i.inertia k)) (h3 : PoseWritten num sh i.pose) :
    readInertial num (sdfInertialXml sh i) = .ok i := by
  set ix : Xml := .elem n!"inertia" [] none
    [textElem n!"ixx" (sh (i.inertia 0)), textElem n!"ixy" (sh (i.inertia 1)), textElem n!"ixz" (sh (i.inertia 2)),
     textElem n!"iyy" (sh (i.inertia 3)), textElem n!"iyz" (sh (i.inertia 4)), textElem n!"izz" (sh (i.inertia 5))] with hix
  have k : ∀ t, (sdfInertialXml sh i).scalar t =
      ((if n!"mass" = t then [textElem n!"mass" (sh i.mass)] else []) ++
      ((if n!"inertia" = t then [ix] else []) ++
      (if n!"pose" = t then (i.pose.map (sdfPoseXml sh)).toList else []))).head? := by
    intro t
    unfold sdfInertialXml
    rw [scalar_elem, aggregate_elem, kids_append, kids_append, kids_single,
      kids_opt t n!"pose" (sdfPoseXml sh) (fun a => ⟨_, _, _, rfl⟩)]
    unfold textElem
    rw [kids_single]
    rfl
  have s1 : (sdfInertialXml sh i).scalar n!"mass" = some (textElem n!"mass" (sh i.mass)) := by rw [k]; simp
  have s2 : (sdfInertialXml sh i).scalar n!"inertia" = some ix := by rw [k]; simp
  have s3 : (sdfInertialXml sh i).scalar n!"pose" = i.pose.map (sdfPoseXml sh) := by rw [k]; simp [toList_head?]
  have r : readInertia num ix = .ok i.inertia := by
    unfold readInertia
    rw [floatElem_head (h2 0) rfl, floatElem_head (h2 1) rfl, floatElem_head (h2 2) rfl, floatElem_head (h2 3) rfl,
      floatElem_head (h2 4) rfl, floatElem_head (h2 5) rfl]
    simp only [ok_bind, pure_ok]
    congr 1; funext i; fin_cases i <;> rfl
  unfold readInertial
  rw [floatElem_head h1 s1, s2, s3, optional_pose h3]
  simp only [ok_bind, required, r, pure_ok]

theorem readGeom_xml {num : NumParser} {sh : Fl → Name} {g : Geom} (h : SdfShapeWritten num sh g) :
    readGeom num (.elem n!"geometry" [] none [sdfShapeXml sh g]) = .ok g := by
  have hc : (Xml.elem n!"geometry" [] none [sdfShapeXml sh g]).children = [sdfShapeXml sh g] := by cases g <;> rfl
  unfold readGeom
  rw [hc]
  dsimp only
  cases g with
  | box v =>
    rw [if_pos (by rfl)]
    have a : (sdfShapeXml sh (.box v)).scalar n!"size" = some (textElem n!"size" (vecText sh v)) := rfl
    have t : (textElem n!"size" (vecText sh v)).text = some (vecText sh v) := rfl
    simp only [a, required, ok_bind, t, readV3_vecText h, pure_ok]
  | cylinder r l =>
    rw [if_neg (by simp [sdfShapeXml, Xml.tag]), if_pos (by rfl), floatElem_head h.1 rfl, floatElem_head h.2 rfl]
    rfl
  | sphere r =>
    rw [if_neg (by simp [sdfShapeXml, Xml.tag]), if_neg (by simp [sdfShapeXml, Xml.tag]), if_pos (by rfl),
      floatElem_head h rfl]
    rfl
  | mesh f s =>
    rw [if_neg (by simp [sdfShapeXml, Xml.tag]), if_neg (by simp [sdfShapeXml, Xml.tag]),
      if_neg (by simp [sdfShapeXml, Xml.tag]), if_pos (by rfl)]
    have a : (sdfShapeXml sh (.mesh f s)).scalar n!"filename" = some (textElem n!"filename" f) := rfl
    have b : (sdfShapeXml sh (.mesh f s)).scalar n!"scale" = s.map fun v => textElem n!"scale" (vecText sh v) := by
      cases s <;> rfl
    rw [a, b, optional_map s _ _ fun v hv => by
      have t : (textElem n!"scale" (vecText sh v)).text = some (vecText sh v) := rfl
      rw [t]; exact readV3_vecText (h v hv)]
    rfl

theorem readVisual_xml {num : NumParser} {sh : Fl → Name} (tag : Name) {v : Vis} (h : PoseWritten num sh v.pose)
    (h2 : SdfShapeWritten num sh v.geometry) : readVisual num (sdfBodyXml sh tag v) = .ok v := by
  set gx : Xml := .elem n!"geometry" [] none [sdfShapeXml sh v.geometry] with hgx
  have k : ∀ t, (sdfBodyXml sh tag v).scalar t =
      ((if n!"geometry" = t then [gx] else []) ++
      (if n!"pose" = t then (v.pose.map (sdfPoseXml sh)).toList else [])).head? := by
    intro t
    unfold sdfBodyXml
    rw [scalar_elem, aggregate_elem, kids_append, kids_single,
      kids_opt t n!"pose" (sdfPoseXml sh) (fun a => ⟨_, _, _, rfl⟩)]
  have s1 : (sdfBodyXml sh tag v).scalar n!"geometry" = some gx := by rw [k]; simp
  have s2 : (sdfBodyXml sh tag v).scalar n!"pose" = v.pose.map (sdfPoseXml sh) := by rw [k]; simp [toList_head?]
  unfold readVisual
  rw [s1, s2, optional_pose h]
  simp only [required, ok_bind, hgx, readGeom_xml h2, pure_ok]

theorem readLink_xml {num : NumParser} {sh : Fl → Name} {l : Lnk}
    (h : SdfLinkWritten num sh l) : readLink num (sdfLinkXml sh l) = .ok l := by
  have k : ∀ t, (sdfLinkXml sh l).aggregate t =
      (if n!"inertial" = t then [sdfInertialXml sh l.inertial] else []) ++
      ((if n!"visual" = t then l.visuals.map (sdfBodyXml sh n!"visual") else []) ++
      ((if n!"collision" = t then l.collisions.map (sdfBodyXml sh n!"collision") else []) ++
      (if n!"pose" = t then (l.pose.map (sdfPoseXml sh)).toList else []))) := by
    intro t
    have e : kids t [sdfInertialXml sh l.inertial] = if n!"inertial" = t then [sdfInertialXml sh l.inertial] else [] := by
      unfold sdfInertialXml; rw [kids_single]
    unfold sdfLinkXml
    rw [aggregate_elem, kids_append, kids_append, kids_append, e,
      kids_map t n!"visual" (sdfBodyXml sh n!"visual") (fun a => ⟨_, _, _, rfl⟩),
      kids_map t n!"collision" (sdfBodyXml sh n!"collision") (fun a => ⟨_, _, _, rfl⟩),
      kids_opt t n!"pose" (sdfPoseXml sh) (fun a => ⟨_, _, _, rfl⟩)]
  have sc : ∀ t, (sdfLinkXml sh l).scalar t = ((sdfLinkXml sh l).aggregate t).head? := fun t => scalar_elem ..
  have s1 : (sdfLinkXml sh l).scalar n!"inertial" = some (sdfInertialXml sh l.inertial) := by rw [sc, k]; simp
  have s2 : (sdfLinkXml sh l).scalar n!"pose" = l.pose.map (sdfPoseXml sh) := by rw [sc, k]; simp [toList_head?]
  have s3 : (sdfLinkXml sh l).aggregate n!"visual" = l.visuals.map (sdfBodyXml sh n!"visual") := by rw [k]; simp
  have s4 : (sdfLinkXml sh l).aggregate n!"collision" = l.collisions.map (sdfBodyXml sh n!"collision") := by rw [k]; simp
  have a1 : (sdfLinkXml sh l).attr n!"name" = l.name := by
    cases hn : l.name <;> simp [sdfLinkXml, Xml.attr, Xml.attrs, hn, List.lookup]
  unfold readLink
  rw [s1, s2, s3, s4, a1, optional_pose h.pose,
    mapM_map_ok _ _ _ fun v hv => readVisual_xml _ (h.visuals v hv).1 (h.visuals v hv).2,
    mapM_map_ok (g := readCollision num) _ _ fun v hv => readVisual_xml _ (h.collisions v hv).1 (h.collisions v hv).2]
  simp only [required, ok_bind, readInertial_xml h.mass h.inertia h.inertial, pure_ok]

theorem readLimit_xml {num : NumParser} {sh : Fl → Name} {l : Limit}
    (h : (∀ y, l.lower = some y → Written num sh y) ∧ ∀ y, l.upper = some y → Written num sh y) :
    readLimit num (sdfLimitXml sh l) = .ok l := by
  have s1 : (sdfLimitXml sh l).scalar n!"lower" = l.lower.map fun y => textElem n!"lower" (sh y) := by
    obtain ⟨a, b⟩ := l; cases a <;> cases b <;> rfl
  have s2 : (sdfLimitXml sh l).scalar n!"upper" = l.upper.map fun y => textElem n!"upper" (sh y) := by
    obtain ⟨a, b⟩ := l; cases a <;> cases b <;> rfl
  unfold readLimit
  rw [s1, s2, optional_float _ h.1, optional_float _ h.2]
  rfl

theorem readDynamics_xml {num : NumParser} {sh : Fl → Name} {l : Dynamics}
    (h : (∀ y, l.damping = some y → Written num sh y) ∧ ∀ y, l.friction = some y → Written num sh y) :
    readDynamics num (sdfDynamicsXml sh l) = .ok l := by
  have s1 : (sdfDynamicsXml sh l).scalar n!"damping" = l.damping.map fun y => textElem n!"damping" (sh y) := by
    obtain ⟨a, b⟩ := l; cases a <;> cases b <;> rfl
  have s2 : (sdfDynamicsXml sh l).scalar n!"friction" = l.friction.map fun y => textElem n!"friction" (sh y) := by
    obtain ⟨a, b⟩ := l; cases a <;> cases b <;> rfl
  unfold readDynamics
  rw [s1, s2, optional_float _ h.1, optional_float _ h.2]
  rfl

theorem readAxis_xml {num : NumParser} {sh : Fl → Name} {j : Jnt} (h : SdfJointWritten num sh j) :
    readAxis num (sdfAxisXml sh j) = .ok (j.axis, j.limit, j.dynamics) := by
  have k : ∀ t, (sdfAxisXml sh j).scalar t =
      ((if n!"xyz" = t then [textElem n!"xyz" (vecText sh j.axis)] else []) ++
      ((if n!"limit" = t then (j.limit.map (sdfLimitXml sh)).toList else []) ++
      (if n!"dynamics" = t then (j.dynamics.map (sdfDynamicsXml sh)).toList else []))).head? := by
    intro t
    unfold sdfAxisXml textElem
    rw [scalar_elem, aggregate_elem, kids_append, kids_append, kids_single,
      kids_opt t n!"limit" (sdfLimitXml sh) (fun a => ⟨_, _, _, rfl⟩),
      kids_opt t n!"dynamics" (sdfDynamicsXml sh) (fun a => ⟨_, _, _, rfl⟩)]
  have s5 : (sdfAxisXml sh j).scalar n!"xyz" = some (textElem n!"xyz" (vecText sh j.axis)) := by rw [k]; simp
  have s6 : (sdfAxisXml sh j).scalar n!"limit" = j.limit.map (sdfLimitXml sh) := by rw [k]; simp [toList_head?]
  have s7 : (sdfAxisXml sh j).scalar n!"dynamics" = j.dynamics.map (sdfDynamicsXml sh) := by rw [k]; simp [toList_head?]
  have t1 : (textElem n!"xyz" (vecText sh j.axis)).text = some (vecText sh j.axis) := rfl
  unfold readAxis
  rw [s5, s6, s7, optional_map _ _ _ fun l hl => readLimit_xml (h.limit l hl),
    optional_map _ _ _ fun l hl => readDynamics_xml (h.dynamics l hl)]
  simp only [required, ok_bind, t1, readV3_vecText h.axis, pure_ok]

theorem readJoint_xml {num : NumParser} {sh : Fl → Name} {j : Jnt} (h : SdfJointWritten num sh j) :
    readJoint num (sdfJointXml sh j) = .ok j := by
  have k : ∀ t, (sdfJointXml sh j).scalar t =
      ((if n!"parent" = t then [textElem n!"parent" j.parent] else []) ++
      ((if n!"child" = t then [textElem n!"child" j.child] else []) ++
      ((if n!"axis" = t then [sdfAxisXml sh j] else []) ++
      (if n!"pose" = t then (j.pose.map (sdfPoseXml sh)).toList else [])))).head? := by
    intro t
    have e : kids t [sdfAxisXml sh j] = if n!"axis" = t then [sdfAxisXml sh j] else [] := by
      unfold sdfAxisXml; rw [kids_single]
    unfold sdfJointXml textElem
    rw [scalar_elem, aggregate_elem, kids_append, kids_append, kids_append, kids_single, kids_single, e,
      kids_opt t n!"pose" (sdfPoseXml sh) (fun a => ⟨_, _, _, rfl⟩)]
  have s1 : (sdfJointXml sh j).scalar n!"axis" = some (sdfAxisXml sh j) := by rw [k]; simp
  have s2 : (sdfJointXml sh j).scalar n!"parent" = some (textElem n!"parent" j.parent) := by rw [k]; simp
  have s3 : (sdfJointXml sh j).scalar n!"child" = some (textElem n!"child" j.child) := by rw [k]; simp
  have s4 : (sdfJointXml sh j).scalar n!"pose" = j.pose.map (sdfPoseXml sh) := by rw [k]; simp [toList_head?]
  have a1 : (sdfJointXml sh j).attr n!"name" = j.name := by
    cases hn : j.name <;> cases ht : j.type <;> simp [sdfJointXml, Xml.attr, Xml.attrs, hn, ht, List.lookup]
  have a2 : (sdfJointXml sh j).attr n!"type" = j.type := by
    cases hn : j.name <;> cases ht : j.type <;> simp [sdfJointXml, Xml.attr, Xml.attrs, hn, ht, List.lookup]
  have t2 : (textElem n!"parent" j.parent).text = some j.parent := rfl
  have t3 : (textElem n!"child" j.child).text = some j.child := rfl
  unfold readJoint
  rw [s1, s2, s3, s4, a1, a2, optional_pose h.pose]
  simp only [required, ok_bind, readAxis_xml h, t2, t3, readStr, pure_ok]

/-- Reading a written document gives the description back. -/
theorem readSdf_xml {num : NumParser} {sh : Fl → Name} {m : Model} (h : SdfWritten num sh m) :
    readSdf num (sdfXml sh m) = .ok m := by
  set md : Xml := .elem n!"model" [(n!"name", n!"m")] none (m.links.map (sdfLinkXml sh) ++ m.joints.map (sdfJointXml sh))
    with hmd
  have k : ∀ t, md.aggregate t = (if n!"link" = t then m.links.map (sdfLinkXml sh) else []) ++
      (if n!"joint" = t then m.joints.map (sdfJointXml sh) else []) := by
    intro t
    rw [hmd, aggregate_elem, kids_append, kids_map t n!"link" (sdfLinkXml sh) (fun a => ⟨_, _, _, rfl⟩),
      kids_map t n!"joint" (sdfJointXml sh) (fun a => ⟨_, _, _, rfl⟩)]
  have g1 : md.aggregate n!"link" = m.links.map (sdfLinkXml sh) := by rw [k]; simp
  have g2 : md.aggregate n!"joint" = m.joints.map (sdfJointXml sh) := by rw [k]; simp
  have g3 : md.scalar n!"pose" = none := by
    have : md.scalar n!"pose" = (md.aggregate n!"pose").head? := scalar_elem ..
    rw [this, k]; simp
  have s : (sdfXml sh m).scalar n!"model" = some md := by
    simp [sdfXml, Xml.scalar, Xml.children, Xml.tag, hmd]
  simp only [readSdf, s, optional, readModel, g1, g2, g3, mapM_map_ok _ _ _ fun l hl => readLink_xml (h.links l hl),
    mapM_map_ok _ _ _ fun j hj => readJoint_xml (h.joints j hj), ok_bind, pure_ok]

end Sdf
end PK
