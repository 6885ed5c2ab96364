import Verif.Lemmas.Exc
import Verif.Lemmas.Loader
import Verif.Model.Xml
import Verif.Spec.Urdf

/-! # Reading what is written -/

namespace PK
open Spec

/-- a word: non-empty, no blanks -/
def IsWord (w : Name) : Prop := w ≠ [] ∧ ∀ c ∈ w, isSpace c = false

theorem splitGo_word (w rest : Name) (hw : ∀ c ∈ w, isSpace c = false) : ∀ cur : Name,
    splitGo cur (w ++ rest) = splitGo (w.reverse ++ cur) rest := by
  induction w with
  | nil => intro cur; rfl
  | cons c w ih =>
    intro cur
    rw [List.cons_append, splitGo, if_neg (by simp [hw c (by simp)]),
      ih (fun d hd => hw d (by simp [hd])) (c :: cur)]
    simp

theorem pySplit_cons (w rest : Name) (hw : IsWord w) : pySplit (w ++ ' ' :: rest) = w :: pySplit rest := by
  unfold pySplit
  rw [splitGo_word w _ hw.2 [], splitGo, if_pos (by decide), if_neg (by simp [hw.1])]
  simp

theorem pySplit_last (w : Name) (hw : IsWord w) : pySplit w = [w] := by
  have := splitGo_word w [] hw.2 []
  rw [List.append_nil] at this
  unfold pySplit
  rw [this, splitGo, if_neg (by simp [hw.1])]
  simp

theorem Spec.Written.word {num : NumParser} {sh : Fl → Name} {x : Fl} (h : Written num sh x) : IsWord (sh x) := by
  refine ⟨h.2.1, fun c hc => ?_⟩
  obtain ⟨h1, h2, h3, h4, h5, h6⟩ := h.2.2 c hc
  simp [isSpace, h1, h2, h3, h4, h5, h6]

theorem readV3_vecText {num : NumParser} {sh : Fl → Name} {v : V3} (h : ∀ i, Written num sh (.fin (v i))) :
    readV3 num (some (vecText sh v)) = .ok v := by
  have e : pySplit (vecText sh v) = [sh (.fin (v 0)), sh (.fin (v 1)), sh (.fin (v 2))] := by
    unfold vecText
    simp only [List.append_assoc, List.cons_append, List.nil_append]
    rw [pySplit_cons _ _ (h 0).word, pySplit_cons _ _ (h 1).word, pySplit_last _ (h 2).word]
  have r : ∀ i, readReal num (sh (.fin (v i))) = .ok (v i) := fun i => by simp [readReal, (h i).1]
  simp only [readV3, readVec, e, List.length_cons, List.length_nil, if_true, List.mapM_cons, List.mapM_nil, r,
    ok_bind, pure_ok]
  congr 1
  funext i
  fin_cases i <;> rfl

/-! ### children by tag -/

/-- the children with a tag -/
def kids (k : Name) (cs : List Xml) : List Xml :=
  (cs.filter fun | .comment => false | .elem .. => true).filter fun c => c.tag == k

theorem scalar_elem (t : Name) (as : List (Name × Name)) (x : Option Name) (cs : List Xml) (k : Name) :
    (Xml.elem t as x cs).scalar k = ((Xml.elem t as x cs).aggregate k).head? := by
  unfold Xml.scalar Xml.aggregate
  rw [List.head?_filter]

theorem aggregate_elem (t : Name) (as : List (Name × Name)) (x : Option Name) (cs : List Xml) (k : Name) :
    (Xml.elem t as x cs).aggregate k = kids k cs := rfl

theorem kids_nil (k : Name) : kids k [] = [] := rfl

theorem kids_append (k : Name) (cs ds : List Xml) : kids k (cs ++ ds) = kids k cs ++ kids k ds := by
  simp [kids]

theorem kids_single (k : Name) (t : Name) (as : List (Name × Name)) (x : Option Name) (cs : List Xml) :
    kids k [.elem t as x cs] = if t = k then [.elem t as x cs] else [] := by
  by_cases h : t = k <;> simp [kids, Xml.tag, h]

theorem kids_map {α : Type} (k t : Name) (f : α → Xml) (hf : ∀ a, ∃ as x cs, f a = .elem t as x cs) (l : List α) :
    kids k (l.map f) = if t = k then l.map f else [] := by
  induction l with
  | nil => simp [kids]
  | cons a l ih =>
    obtain ⟨as, x, cs, e⟩ := hf a
    have : (a :: l).map f = [f a] ++ l.map f := rfl
    rw [this, kids_append, ih, e, kids_single]
    split <;> rfl

theorem kids_opt {α : Type} (k t : Name) (f : α → Xml) (hf : ∀ a, ∃ as x cs, f a = .elem t as x cs) (o : Option α) :
    kids k (o.map f).toList = if t = k then (o.map f).toList else [] := by
  cases o with
  | none => simp [kids]
  | some a =>
    obtain ⟨as, x, cs, e⟩ := hf a
    simp only [Option.map_some, Option.toList_some, e, kids_single]

theorem optional_map {α β : Type} (o : Option α) (f : α → β) (g : β → Except Err α) (h : ∀ a, o = some a → g (f a) = .ok a) :
    optional (o.map f) g = .ok o := by
  cases o with
  | none => rfl
  | some a => simp only [Option.map_some, optional, h a rfl, ok_bind, pure_ok]

open Urdf

theorem readPose_poseXml {num : NumParser} {sh : Fl → Name} {p : Pose}
    (h : ∀ i, Written num sh (.fin (p.xyz i)) ∧ Written num sh (.fin (p.rpy i))) :
    readPose num (poseXml sh p) = .ok p := by
  have a1 : (poseXml sh p).attr n!"xyz" = some (vecText sh p.xyz) := rfl
  have a2 : (poseXml sh p).attr n!"rpy" = some (vecText sh p.rpy) := rfl
  simp only [readPose, a1, a2, optional, readV3_vecText fun i => (h i).1, readV3_vecText fun i => (h i).2, ok_bind,
    pure_ok, Option.getD_some]

theorem optional_origin {num : NumParser} {sh : Fl → Name} {o : Option Pose} (h : OriginWritten num sh o) :
    optional (o.map (poseXml sh)) (readPose num) = .ok o :=
  optional_map _ _ _ fun p hp => readPose_poseXml (h p hp)

theorem readLimit_limitXml {num : NumParser} {sh : Fl → Name} {l : Limit}
    (h : Written num sh l.lower ∧ Written num sh l.upper ∧ Written num sh l.effort ∧ Written num sh l.velocity) :
    readLimit num (limitXml sh l) = .ok l := by
  obtain ⟨h1, h2, h3, h4⟩ := h
  have a1 : (limitXml sh l).attr n!"lower" = some (sh l.lower) := rfl
  have a2 : (limitXml sh l).attr n!"upper" = some (sh l.upper) := rfl
  have a3 : (limitXml sh l).attr n!"effort" = some (sh l.effort) := rfl
  have a4 : (limitXml sh l).attr n!"velocity" = some (sh l.velocity) := rfl
  simp only [readLimit, floatAttr, a1, a2, a3, a4, required, optional, readFloat, h1.1, h2.1, h3.1, h4.1, ok_bind,
    pure_ok, Option.getD_some]

theorem readMimic_mimicXml {num : NumParser} {sh : Fl → Name} {m : Mimic}
    (h : (∀ x, m.multiplier = some x → Written num sh x) ∧ ∀ x, m.offset = some x → Written num sh x) :
    readMimic num (mimicXml sh m) = .ok m := by
  obtain ⟨j, mu, o⟩ := m
  cases mu <;> cases o <;>
    simp_all [readMimic, mimicXml, Xml.attr, Xml.attrs, List.lookup, required, optional, readFloat, ok_bind, pure_ok, Written]

theorem readDynamics_xml {num : NumParser} {sh : Fl → Name} {d : Dynamics}
    (h : (∀ x, d.damping = some x → Written num sh x) ∧ ∀ x, d.friction = some x → Written num sh x) :
    readDynamics num (dynamicsXml sh d) = .ok d := by
  obtain ⟨mu, o⟩ := d
  cases mu <;> cases o <;>
    simp_all [readDynamics, dynamicsXml, optFloat, numAttr, Xml.attr, Xml.attrs, List.lookup, optional, readFloat,
      ok_bind, pure_ok, Written]

theorem readSafety_xml {num : NumParser} {sh : Fl → Name} {s : Safety}
    (h : Written num sh s.kVelocity ∧ Written num sh s.kPosition ∧ Written num sh s.lower ∧ Written num sh s.upper) :
    readSafety num (safetyXml sh s) = .ok s := by
  obtain ⟨h1, h2, h3, h4⟩ := h
  have a1 : (safetyXml sh s).attr n!"soft_lower_limit" = some (sh s.lower) := rfl
  have a2 : (safetyXml sh s).attr n!"soft_upper_limit" = some (sh s.upper) := rfl
  have a3 : (safetyXml sh s).attr n!"k_position" = some (sh s.kPosition) := rfl
  have a4 : (safetyXml sh s).attr n!"k_velocity" = some (sh s.kVelocity) := rfl
  simp only [readSafety, floatAttr, optFloat, a1, a2, a3, a4, required, optional, readFloat, h1.1, h2.1, h3.1, h4.1, ok_bind,
    pure_ok, Option.getD_some]

theorem readCalibration_xml {num : NumParser} {sh : Fl → Name} {c : Calibration}
    (h : Written num sh c.rising ∧ Written num sh c.falling) : readCalibration num (calibrationXml sh c) = .ok c := by
  have a1 : (calibrationXml sh c).attr n!"rising" = some (sh c.rising) := rfl
  have a2 : (calibrationXml sh c).attr n!"falling" = some (sh c.falling) := rfl
  simp only [readCalibration, optFloat, a1, a2, optional, readFloat, h.1.1, h.2.1, ok_bind, pure_ok, Option.getD_some]

theorem joint_kids (sh : Fl → Name) (j : Jnt) (k : Name) : (jointXml sh j).scalar k =
    ((if n!"origin" = k then (j.origin.map (poseXml sh)).toList else []) ++
    ((if n!"axis" = k then (j.axis.map fun a => Xml.elem n!"axis" [(n!"xyz", vecText sh a)] none []).toList else []) ++
    ((if n!"parent" = k then [Xml.elem n!"parent" [(n!"link", j.parent)] none []] else []) ++
    ((if n!"child" = k then [Xml.elem n!"child" [(n!"link", j.child)] none []] else []) ++
    ((if n!"limit" = k then (j.limit.map (limitXml sh)).toList else []) ++
    ((if n!"mimic" = k then (j.mimic.map (mimicXml sh)).toList else []) ++
    ((if n!"dynamics" = k then (j.dynamics.map (dynamicsXml sh)).toList else []) ++
    ((if n!"safety_controller" = k then (j.safety.map (safetyXml sh)).toList else []) ++
    (if n!"calibration" = k then (j.calibration.map (calibrationXml sh)).toList else []))))))))).head? := by
  unfold jointXml
  rw [scalar_elem, aggregate_elem]
  simp only [kids_append, kids_single]
  rw [kids_opt k n!"origin" (poseXml sh) (fun a => ⟨_, _, _, rfl⟩), kids_opt k n!"axis" (fun a => Xml.elem n!"axis" [(n!"xyz", vecText sh a)] none []) (fun a => ⟨_, _, _, rfl⟩),
    kids_opt k n!"limit" (limitXml sh) (fun a => ⟨_, _, _, rfl⟩), kids_opt k n!"mimic" (mimicXml sh) (fun a => ⟨_, _, _, rfl⟩),
    kids_opt k n!"dynamics" (dynamicsXml sh) (fun a => ⟨_, _, _, rfl⟩), kids_opt k n!"safety_controller" (safetyXml sh) (fun a => ⟨_, _, _, rfl⟩),
    kids_opt k n!"calibration" (calibrationXml sh) (fun a => ⟨_, _, _, rfl⟩)]

theorem toList_head? {α : Type} (o : Option α) : o.toList.head? = o := by cases o <;> rfl

theorem readJoint_jointXml {num : NumParser} {sh : Fl → Name} {j : Jnt} (h : JointWritten num sh j)
    (ht : j.type ∈ jointTypes) : readJoint num (jointXml sh j) = .ok j := by
  have s1 : (jointXml sh j).scalar n!"origin" = j.origin.map (poseXml sh) := by
    rw [joint_kids]; simp [toList_head?]
  have s2 : (jointXml sh j).scalar n!"axis" = j.axis.map fun a => .elem n!"axis" [(n!"xyz", vecText sh a)] none [] := by
    rw [joint_kids]; simp [toList_head?]
  have s3 : (jointXml sh j).scalar n!"limit" = j.limit.map (limitXml sh) := by
    rw [joint_kids]; simp [toList_head?]
  have s4 : (jointXml sh j).scalar n!"parent" = some (.elem n!"parent" [(n!"link", j.parent)] none []) := by
    rw [joint_kids]; simp
  have s5 : (jointXml sh j).scalar n!"child" = some (.elem n!"child" [(n!"link", j.child)] none []) := by
    rw [joint_kids]; simp
  have s6 : (jointXml sh j).scalar n!"dynamics" = j.dynamics.map (dynamicsXml sh) := by
    rw [joint_kids]; simp [toList_head?]
  have s7 : (jointXml sh j).scalar n!"mimic" = j.mimic.map (mimicXml sh) := by
    rw [joint_kids]; simp [toList_head?]
  have s8 : (jointXml sh j).scalar n!"safety_controller" = j.safety.map (safetyXml sh) := by
    rw [joint_kids]; simp [toList_head?]
  have s9 : (jointXml sh j).scalar n!"calibration" = j.calibration.map (calibrationXml sh) := by
    rw [joint_kids]; simp [toList_head?]
  have o1 := optional_origin h.pose
  have o2 : optional (j.axis.map fun a => Xml.elem n!"axis" [(n!"xyz", vecText sh a)] none [])
      (fun a => readV3 num (a.attr n!"xyz")) = .ok j.axis :=
    optional_map _ _ _ fun a ha => readV3_vecText (h.axis a ha)
  have o3 : optional (j.limit.map (limitXml sh)) (readLimit num) = .ok j.limit :=
    optional_map _ _ _ fun a ha => readLimit_limitXml (h.limit a ha)
  have o4 : optional (j.mimic.map (mimicXml sh)) (readMimic num) = .ok j.mimic :=
    optional_map _ _ _ fun a ha => readMimic_mimicXml (h.mimic a ha)
  have o5 : optional (j.dynamics.map (dynamicsXml sh)) (readDynamics num) = .ok j.dynamics :=
    optional_map _ _ _ fun a ha => readDynamics_xml (h.dynamics a ha)
  have o6 : optional (j.safety.map (safetyXml sh)) (readSafety num) = .ok j.safety :=
    optional_map _ _ _ fun a ha => readSafety_xml (h.safety a ha)
  have o7 : optional (j.calibration.map (calibrationXml sh)) (readCalibration num) = .ok j.calibration :=
    optional_map _ _ _ fun a ha => readCalibration_xml (h.calibration a ha)
  have a1 : (jointXml sh j).attr n!"name" = some j.name := rfl
  have a2 : (jointXml sh j).attr n!"type" = some j.type := rfl
  simp only [readJoint, a1, a2, required, s1, s2, s3, s4, s5, s6, s7, s8, s9, o1, o2, o3, o4, o5, o6, o7, ok_bind]
  simp only [if_pos ht, pure_ok]
  cases j
  rfl

theorem readGeom_xml {num : NumParser} {sh : Fl → Name} {g : Geom} (h : ShapeWritten num sh g) :
    readGeom num (geometryXml sh g) = .ok g := by
  have hc : (geometryXml sh g).children = [shapeXml sh g] := by cases g <;> rfl
  unfold readGeom
  rw [hc]
  cases g with
  | box v =>
    have a : (shapeXml sh (.box v)).attr n!"size" = some (vecText sh v) := rfl
    simp only [show (shapeXml sh (.box v)).tag = n!"box" from rfl, if_true, a, required, ok_bind, readV3_vecText h, pure_ok]
  | cylinder r l =>
    have a : (shapeXml sh (.cylinder r l)).attr n!"radius" = some (sh r) := rfl
    have b : (shapeXml sh (.cylinder r l)).attr n!"length" = some (sh l) := rfl
    dsimp only
    rw [if_neg (by simp [shapeXml, Xml.tag]), if_pos (by rfl)]
    simp only [floatAttr, a, b, required, readFloat, h.1.1, h.2.1, ok_bind, pure_ok]
  | sphere r =>
    have a : (shapeXml sh (.sphere r)).attr n!"radius" = some (sh r) := rfl
    dsimp only
    rw [if_neg (by simp [shapeXml, Xml.tag]), if_neg (by simp [shapeXml, Xml.tag]), if_pos (by rfl)]
    have h' : Written num sh r := h
    simp only [floatAttr, a, required, readFloat, h'.1, ok_bind, pure_ok]
  | mesh f s =>
    have a : (shapeXml sh (.mesh f s)).attr n!"filename" = some f := rfl
    have b : (shapeXml sh (.mesh f s)).attr n!"scale" = s.map (vecText sh) := by
      cases s <;> rfl
    dsimp only
    rw [if_neg (by simp [shapeXml, Xml.tag]), if_neg (by simp [shapeXml, Xml.tag]), if_neg (by simp [shapeXml, Xml.tag]),
      if_pos (by rfl)]
    simp only [a, b, required, ok_bind]
    rw [optional_map s (vecText sh) _ fun v hv => readV3_vecText (h v hv), ok_bind, pure_ok]
  | capsule r l =>
    have a : (shapeXml sh (.capsule r l)).attr n!"radius" = some (sh r) := rfl
    have b : (shapeXml sh (.capsule r l)).attr n!"length" = some (sh l) := rfl
    dsimp only
    rw [if_neg (by simp [shapeXml, Xml.tag]), if_neg (by simp [shapeXml, Xml.tag]), if_neg (by simp [shapeXml, Xml.tag]),
      if_neg (by simp [shapeXml, Xml.tag]), if_pos (by rfl)]
    simp only [floatAttr, a, b, required, readFloat, h.1.1, h.2.1, ok_bind, pure_ok]

theorem readRgba {num : NumParser} {sh : Fl → Name} {c : Fin 4 → ℝ} (h : ∀ i, Written num sh (.fin (c i))) :
    readVec num 4 (some (rgbaText sh c)) = .ok [c 0, c 1, c 2, c 3] := by
  have e : pySplit (rgbaText sh c) = [sh (.fin (c 0)), sh (.fin (c 1)), sh (.fin (c 2)), sh (.fin (c 3))] := by
    unfold rgbaText
    simp only [List.append_assoc, List.cons_append, List.nil_append]
    rw [pySplit_cons _ _ (h 0).word, pySplit_cons _ _ (h 1).word, pySplit_cons _ _ (h 2).word, pySplit_last _ (h 3).word]
  have r : ∀ i, readReal num (sh (.fin (c i))) = .ok (c i) := fun i => by simp [readReal, (h i).1]
  simp only [readVec, e, List.length_cons, List.length_nil, if_true, List.mapM_cons, List.mapM_nil, r, ok_bind, pure_ok]

theorem readMaterial_xml {num : NumParser} {sh : Fl → Name} {m : Material} (h : MaterialWritten num sh m) :
    readMaterial num (materialXml sh m) = .ok m := by
  have k : ∀ t, (materialXml sh m).scalar t =
      ((if n!"color" = t then (m.color.map fun c => Xml.elem n!"color" [(n!"rgba", rgbaText sh c)] none []).toList else []) ++
      (if n!"texture" = t then (m.texture.map fun c => Xml.elem n!"texture" [(n!"filename", c)] none []).toList else [])).head? := by
    intro t
    unfold materialXml
    rw [scalar_elem, aggregate_elem, kids_append, kids_opt t n!"color" (fun c => Xml.elem n!"color" [(n!"rgba", rgbaText sh c)] none []) (fun a => ⟨_, _, _, rfl⟩),
      kids_opt t n!"texture" (fun c => Xml.elem n!"texture" [(n!"filename", c)] none []) (fun a => ⟨_, _, _, rfl⟩)]
  have s1 : (materialXml sh m).scalar n!"color" = m.color.map fun c => Xml.elem n!"color" [(n!"rgba", rgbaText sh c)] none [] := by
    rw [k]; simp [toList_head?]
  have s2 : (materialXml sh m).scalar n!"texture" = m.texture.map fun c => Xml.elem n!"texture" [(n!"filename", c)] none [] := by
    rw [k]; simp [toList_head?]
  have a : (materialXml sh m).attr n!"name" = some m.name := rfl
  unfold readMaterial
  rw [s1, s2, a, optional_map m.texture _ _ fun t _ => by rfl, optional_map m.color _ _ fun c hc => ?_]
  · rfl
  · have : (Xml.elem n!"color" [(n!"rgba", rgbaText sh c)] none []).attr n!"rgba" = some (rgbaText sh c) := rfl
    simp only [this, required, ok_bind, readRgba (h c hc), pure_ok]
    congr 1; funext i; fin_cases i <;> rfl

theorem readVisual_xml {num : NumParser} {sh : Fl → Name} {v : Vis} (h : OriginWritten num sh v.origin)
    (h2 : ShapeWritten num sh v.geometry) (h3 : ∀ m, v.material = some m → MaterialWritten num sh m) :
    readVisual num (visualXml sh v) = .ok v := by
  have k : ∀ t, (visualXml sh v).scalar t =
      ((if n!"origin" = t then (v.origin.map (poseXml sh)).toList else []) ++
      ((if n!"geometry" = t then [geometryXml sh v.geometry] else []) ++
      (if n!"material" = t then (v.material.map (materialXml sh)).toList else []))).head? := by
    intro t
    unfold visualXml geometryXml
    rw [scalar_elem, aggregate_elem, kids_append, kids_append, kids_single, kids_opt t n!"origin" (poseXml sh) (fun a => ⟨_, _, _, rfl⟩),
      kids_opt t n!"material" (materialXml sh) (fun a => ⟨_, _, _, rfl⟩)]
  have s1 : (visualXml sh v).scalar n!"origin" = v.origin.map (poseXml sh) := by rw [k]; simp [toList_head?]
  have s2 : (visualXml sh v).scalar n!"geometry" = some (geometryXml sh v.geometry) := by rw [k]; simp
  have s3 : (visualXml sh v).scalar n!"material" = v.material.map (materialXml sh) := by rw [k]; simp [toList_head?]
  unfold readVisual
  rw [s1, s2, s3, optional_origin h, optional_map _ _ _ fun m hm => readMaterial_xml (h3 m hm)]
  simp only [required, ok_bind, readGeom_xml h2, pure_ok]

theorem readCollision_xml {num : NumParser} {sh : Fl → Name} {v : Coll} (h : OriginWritten num sh v.origin)
    (h2 : ShapeWritten num sh v.geometry) : readCollision num (collisionXml sh v) = .ok v := by
  have k : ∀ t, (collisionXml sh v).scalar t =
      ((if n!"origin" = t then (v.origin.map (poseXml sh)).toList else []) ++
      (if n!"geometry" = t then [geometryXml sh v.geometry] else [])).head? := by
    intro t
    unfold collisionXml geometryXml
    rw [scalar_elem, aggregate_elem, kids_append, kids_single, kids_opt t n!"origin" (poseXml sh) (fun a => ⟨_, _, _, rfl⟩)]
  have s1 : (collisionXml sh v).scalar n!"origin" = v.origin.map (poseXml sh) := by rw [k]; simp [toList_head?]
  have s2 : (collisionXml sh v).scalar n!"geometry" = some (geometryXml sh v.geometry) := by rw [k]; simp
  unfold readCollision
  rw [s1, s2, optional_origin h]
  simp only [required, ok_bind, readGeom_xml h2, pure_ok]

theorem readInertial_xml {num : NumParser} {sh : Fl → Name} {i : Inertial} (h : OriginWritten num sh i.origin)
    (h2 : Written num sh i.mass) (h3 : ∀ m, i.inertia = some m → ∀ k, Written num sh (m k)) :
    readInertial num (inertialXml sh i) = .ok i := by
  set ix : (Fin 6 → Fl) → Xml := fun m => .elem n!"inertia" [(n!"ixx", sh (m 0)), (n!"ixy", sh (m 1)), (n!"ixz", sh (m 2)),
      (n!"iyy", sh (m 3)), (n!"iyz", sh (m 4)), (n!"izz", sh (m 5))] none [] with hix
  have k : ∀ t, (inertialXml sh i).scalar t =
      ((if n!"origin" = t then (i.origin.map (poseXml sh)).toList else []) ++
      ((if n!"mass" = t then [Xml.elem n!"mass" [(n!"value", sh i.mass)] none []] else []) ++
      (if n!"inertia" = t then (i.inertia.map ix).toList else []))).head? := by
    intro t
    unfold inertialXml
    rw [scalar_elem, aggregate_elem, kids_append, kids_append, kids_single, kids_opt t n!"origin" (poseXml sh) (fun a => ⟨_, _, _, rfl⟩),
      kids_opt t n!"inertia" ix (fun a => ⟨_, _, _, rfl⟩)]
  have s1 : (inertialXml sh i).scalar n!"origin" = i.origin.map (poseXml sh) := by rw [k]; simp [toList_head?]
  have s2 : (inertialXml sh i).scalar n!"mass" = some (.elem n!"mass" [(n!"value", sh i.mass)] none []) := by rw [k]; simp
  have s3 : (inertialXml sh i).scalar n!"inertia" = i.inertia.map ix := by rw [k]; simp [toList_head?]
  have r : ∀ m, i.inertia = some m → readInertia num (ix m) = .ok m := by
    intro m hm
    have a0 : (ix m).attr n!"ixx" = some (sh (m 0)) := rfl
    have a1 : (ix m).attr n!"ixy" = some (sh (m 1)) := rfl
    have a2 : (ix m).attr n!"ixz" = some (sh (m 2)) := rfl
    have a3 : (ix m).attr n!"iyy" = some (sh (m 3)) := rfl
    have a4 : (ix m).attr n!"iyz" = some (sh (m 4)) := rfl
    have a5 : (ix m).attr n!"izz" = some (sh (m 5)) := rfl
    simp only [readInertia, floatAttr, a0, a1, a2, a3, a4, a5, required, readFloat, (h3 m hm _).1, ok_bind, pure_ok]
    congr 1; funext i; fin_cases i <;> rfl
  unfold readInertial
  rw [s1, s2, s3, optional_origin h, optional_map _ _ _ r]
  have a : (Xml.elem n!"mass" [(n!"value", sh i.mass)] none []).attr n!"value" = some (sh i.mass) := rfl
  simp only [required, ok_bind, a, readFloat, h2.1, pure_ok]

theorem mapM_map_ok {α β : Type} (l : List α) (f : α → β) (g : β → Except Err α) (h : ∀ a ∈ l, g (f a) = .ok a) :
    (l.map f).mapM g = .ok l := by
  rw [List.mapM_map, mapM_ok_map _ id]
  · simp
  · exact h

theorem readLink_linkXml {num : NumParser} {sh : Fl → Name} {l : Lnk} (h : LinkWritten num sh l) :
    readLink num (linkXml sh l) = .ok l := by
  have k : ∀ t, (linkXml sh l).aggregate t =
      (if n!"origin" = t then (l.origin.map (poseXml sh)).toList else []) ++
      ((if n!"visual" = t then l.visuals.map (visualXml sh) else []) ++
      ((if n!"collision" = t then l.collisions.map (collisionXml sh) else []) ++
      (if n!"inertial" = t then (l.inertial.map (inertialXml sh)).toList else []))) := by
    intro t
    unfold linkXml
    rw [aggregate_elem, kids_append, kids_append, kids_append, kids_opt t n!"origin" (poseXml sh) (fun a => ⟨_, _, _, rfl⟩),
      kids_map t n!"visual" (visualXml sh) (fun a => ⟨_, _, _, rfl⟩), kids_map t n!"collision" (collisionXml sh) (fun a => ⟨_, _, _, rfl⟩),
      kids_opt t n!"inertial" (inertialXml sh) (fun a => ⟨_, _, _, rfl⟩)]
  have sc : ∀ t, (linkXml sh l).scalar t = ((linkXml sh l).aggregate t).head? := fun t => scalar_elem ..
  have s1 : (linkXml sh l).scalar n!"origin" = l.origin.map (poseXml sh) := by rw [sc, k]; simp [toList_head?]
  have s2 : (linkXml sh l).aggregate n!"visual" = l.visuals.map (visualXml sh) := by rw [k]; simp
  have s3 : (linkXml sh l).aggregate n!"collision" = l.collisions.map (collisionXml sh) := by rw [k]; simp
  have s4 : (linkXml sh l).scalar n!"inertial" = l.inertial.map (inertialXml sh) := by rw [sc, k]; simp [toList_head?]
  have a : (linkXml sh l).attr n!"name" = some l.name := rfl
  unfold readLink
  rw [a, s1, s2, s3, s4, optional_origin h.pose,
    mapM_map_ok _ _ _ fun v hv => readVisual_xml (h.visuals v hv).1 (h.visuals v hv).2.1 (h.visuals v hv).2.2,
    mapM_map_ok _ _ _ fun v hv => readCollision_xml (h.collisions v hv).1 (h.collisions v hv).2,
    optional_map _ _ _ fun i hi => readInertial_xml (h.inertial i hi).1 (h.inertial i hi).2.1 (h.inertial i hi).2.2]
  rfl

/-- Reading a written document gives the description back. -/
theorem readRobot_robotXml {num : NumParser} {sh : Fl → Name} {r : Robot} (h : RobotWritten num sh r)
    (ht : ∀ j ∈ r.joints, j.type ∈ jointTypes) : readRobot num (robotXml sh r) = .ok r := by
  have k : ∀ t, (robotXml sh r).aggregate t =
      (if n!"material" = t then r.materials.map (materialXml sh) else []) ++
      ((if n!"link" = t then r.links.map (linkXml sh) else []) ++
      (if n!"joint" = t then r.joints.map (jointXml sh) else [])) := by
    intro t
    unfold robotXml
    rw [aggregate_elem, kids_append, kids_append, kids_map t n!"material" (materialXml sh) (fun a => ⟨_, _, _, rfl⟩),
      kids_map t n!"link" (linkXml sh) (fun a => ⟨_, _, _, rfl⟩), kids_map t n!"joint" (jointXml sh) (fun a => ⟨_, _, _, rfl⟩)]
  have g1 : (robotXml sh r).aggregate n!"link" = r.links.map (linkXml sh) := by rw [k]; simp
  have g2 : (robotXml sh r).aggregate n!"joint" = r.joints.map (jointXml sh) := by rw [k]; simp
  have g3 : (robotXml sh r).aggregate n!"transmission" = [] := by rw [k]; simp
  have g4 : (robotXml sh r).aggregate n!"material" = r.materials.map (materialXml sh) := by rw [k]; simp
  unfold readRobot
  rw [g1, g2, g3, g4, mapM_map_ok _ _ _ fun l hl => readLink_linkXml (h.links l hl),
    mapM_map_ok _ _ _ fun j hj => readJoint_jointXml (h.joints j hj) (ht j hj),
    mapM_map_ok _ _ _ fun m hm => readMaterial_xml (h.materials m hm)]
  rfl

end PK
