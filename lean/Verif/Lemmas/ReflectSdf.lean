import Verif.Lemmas.ReflectUrdf
import Verif.Model.Sdf

/-!
# The engine reads SDF as the readers of `Model/Sdf.lean` do
-/

namespace PK.Reflect
open PK

namespace S
variable {F : Fmt} {n : Xml}
open U (inst_ne read_nn num_ne read_other)

theorem rowF {k : Name} {x : Fl} : scalVal { xmlVar := k, vt := floatT F } n = some (.num x) ↔ floatElem F.parse n k = .ok x := by
  rw [scal_req (enc := PVal.num) (read := fun c => readFloat F.parse c.text) fun c _ => float_iff]
  simp only [floatElem, bind_eq_ok, required_ok]

theorem rowO {k : Name} {o : Option Fl} : scalVal { xmlVar := k, vt := floatT F, required := false } n = some (encO .num o) ↔
    optional (n.scalar k) (fun c => readFloat F.parse c.text) = .ok o := by
  refine scal_opt (enc := PVal.num) num_ne (fun c h => ?_) fun c _ => float_iff
  cases e : c.text with
  | none => simp [floatT, VType.ofString, e] at h
  | some s => exact float_ne (F := F) (s := s) (by simpa [floatT, VType.ofString, e] using h)

theorem rowN {k : Name} {o : Option Name} :
    attrVal { xmlVar := k, vt := strT F, required := false } n = some (encO .str o) ↔ n.attr k = o := by
  rw [attr_opt (enc := PVal.str) (read := fun s => Except.ok s) (by simp) (fun s => by simp [strT, VType.ofString])
      fun s x => by simp [str_iff, readStr]]
  cases o with
  | none => rw [optional_none]
  | some x => simp [optional_some]

theorem rowT {k x : Name} : scalVal { xmlVar := k, vt := strT F } n = some (.str x) ↔
    ∃ c, n.scalar k = some c ∧ readStr c.text = x := by
  have := scal_req (vt := strT F) (k := k) (n := n) (x := x) (enc := PVal.str)
    (read := fun c => Except.ok (readStr c.text)) fun c x => by
      rw [show (strT F).fromXml c = (strT F).fromString c.text from rfl, str_iff]
      simp
  simpa using this

theorem rowV {k : Name} {v : V3} : scalVal { xmlVar := k, vt := vecT F 3 } n = some (encV3 v) ↔
    ∃ c, n.scalar k = some c ∧ readV3 F.parse c.text = .ok v :=
  scal_req (enc := encV3) (read := fun c => readV3 F.parse c.text) fun c _ => v3_iff

theorem vec_ne' {count : ℕ} {t : Option Name} : (vecT F count).fromString t ≠ some .none := by
  cases t with
  | none => simp [vecT, VType.ofString]
  | some s => exact vec_ne

/-- `<pose>` -/
def encPose (p : Sdf.Pose) : PVal := encVec [p.xyz 0, p.xyz 1, p.xyz 2, p.rpy 0, p.rpy 1, p.rpy 2]

theorem pose_iff {p : Sdf.Pose} : (vecT F 6).fromXml n = some (encPose p) ↔ Sdf.readPose F.parse n = .ok p := by
  rw [show (vecT F 6).fromXml n = (vecT F 6).fromString n.text from rfl, encPose, vec_iff, Sdf.readPose, bind_eq_ok]
  constructor
  · intro h
    refine ⟨_, h, ?_⟩
    rw [pure_ok]
    congr 1
    obtain ⟨x, r⟩ := p
    congr 1
    · funext i; fin_cases i <;> rfl
    · funext i; fin_cases i <;> rfl
  · rintro ⟨l, hl, h⟩
    have hlen := readVec_length hl
    rw [pure_ok, Except.ok.injEq] at h
    subst h
    match l, hlen with
    | [a, b, c, d, e, f], _ => exact hl

theorem rowP {o : Option Sdf.Pose} : scalVal (poseElem F) n = some (encO encPose o) ↔
    optional (n.scalar n!"pose") (Sdf.readPose F.parse) = .ok o :=
  scal_opt (enc := encPose) (by simp [encPose, encVec]) (fun _ => vec_ne') fun _ _ => pose_iff

/-- `Inertia` -/
def encInertia (F : Fmt) (i : Fin 6 → Fl) : PVal :=
  (inertia F).inst [.num (i 0), .num (i 1), .num (i 2), .num (i 3), .num (i 4), .num (i 5)]

theorem inertia_iff {i : Fin 6 → Fl} : (inertia F).read n = some (encInertia F i) ↔ Sdf.readInertia F.parse n = .ok i := by
  refine (Cls.read_leaf inertia_proper (xs := []) (ys := [_, _, _, _, _, _]) rfl rfl (of_decide_eq_true rfl) rfl
    rows![] rows![rowF, rowF, rowF, rowF, rowF, rowF] rfl).trans ?_
  simp only [Sdf.readInertia, bind_eq_ok, pure_ok, Except.ok.injEq, and_true, true_and]
  constructor
  · rintro ⟨h1, h2, h3, h4, h5, h6⟩
    refine ⟨_, h1, _, h2, _, h3, _, h4, _, h5, _, h6, ?_⟩
    funext j
    fin_cases j <;> rfl
  · rintro ⟨_, h1, _, h2, _, h3, _, h4, _, h5, _, h6, rfl⟩
    exact ⟨h1, h2, h3, h4, h5, h6⟩

/-- `Inertial` -/
def encInertial (F : Fmt) (i : Sdf.Inertial) : PVal :=
  (inertial F).inst [.num i.mass, encInertia F i.inertia, encO encPose i.pose]

theorem inertial_iff {i : Sdf.Inertial} : (inertial F).read n = some (encInertial F i) ↔ Sdf.readInertial F.parse n = .ok i := by
  refine (Cls.read_leaf inertial_proper (xs := []) (ys := [_, _, _]) rfl rfl (of_decide_eq_true rfl) rfl
    rows![] rows![rowF, scal_req (enc := encInertia F) (read := Sdf.readInertia F.parse) fun _ _ => inertia_iff, rowP] rfl).trans ?_
  simp only [Sdf.readInertial, bind_eq_ok, pure_ok, required_ok, Except.ok.injEq, and_true, true_and]
  constructor
  · rintro ⟨h1, ⟨c, h2, h3⟩, h4⟩
    exact ⟨_, h1, _, h2, _, h3, _, h4, rfl⟩
  · rintro ⟨_, h1, _, h2, _, h3, _, h4, rfl⟩
    exact ⟨h1, ⟨_, h2, h3⟩, h4⟩

/-- the alternatives of a geometry -/
def encGeom (F : Fmt) : Sdf.Geom → PVal
  | .box s => (box F).inst [encV3 s]
  | .cylinder r l => (cylinder F).inst [.num r, .num l]
  | .sphere r => (sphere F).inst [.num r]
  | .mesh f s => (mesh F).inst [.str f, encO encV3 s]

theorem box_iff {v : V3} : (box F).read n = some (encGeom F (.box v)) ↔
    ∃ s, n.scalar n!"size" = some s ∧ readV3 F.parse s.text = .ok v := by
  refine (Cls.read_leaf box_proper (xs := []) (ys := [_]) rfl rfl (of_decide_eq_true rfl) rfl rows![] rows![rowV] rfl).trans ?_
  simp only [and_true, true_and]

theorem cylinder_iff {r l : Fl} : (cylinder F).read n = some (encGeom F (.cylinder r l)) ↔
    floatElem F.parse n n!"radius" = .ok r ∧ floatElem F.parse n n!"length" = .ok l := by
  refine (Cls.read_leaf cylinder_proper (xs := []) (ys := [_, _]) rfl rfl (of_decide_eq_true rfl) rfl
    rows![] rows![rowF, rowF] rfl).trans ?_
  simp only [and_true, true_and]

theorem sphere_iff {r : Fl} : (sphere F).read n = some (encGeom F (.sphere r)) ↔ floatElem F.parse n n!"radius" = .ok r := by
  refine (Cls.read_leaf sphere_proper (xs := []) (ys := [_]) rfl rfl (of_decide_eq_true rfl) rfl
    rows![] rows![rowF] rfl).trans ?_
  simp only [and_true, true_and]

theorem mesh_iff {f : Name} {o : Option V3} : (mesh F).read n = some (encGeom F (.mesh f o)) ↔
    (∃ c, n.scalar n!"filename" = some c ∧ readStr c.text = f) ∧
    optional (n.scalar n!"scale") (fun s => readV3 F.parse s.text) = .ok o := by
  refine (Cls.read_leaf mesh_proper (xs := []) (ys := [_, _]) rfl rfl (of_decide_eq_true rfl) rfl
    rows![] rows![rowT, scal_opt (enc := encV3) encV3_ne (fun _ => vec_ne') fun c _ => v3_iff (t := c.text)] rfl).trans ?_
  simp only [and_true, true_and]

theorem geometries_lookup {t : Name} : (geometries F).lookup t = if t = n!"box" then some (box F) else
    if t = n!"cylinder" then some (cylinder F) else if t = n!"sphere" then some (sphere F) else
    if t = n!"mesh" then some (mesh F) else none := by
  simp only [geometries, List.lookup]
  repeat' split
  all_goals simp_all

theorem geom_iff {g : Sdf.Geom} : (geometricT (geometries F)).fromXml n = some (encGeom F g) ↔ Sdf.readGeom F.parse n = .ok g := by
  simp only [geometricT, Sdf.readGeom, geometries_lookup]
  generalize n.children = cs
  match cs with
  | [] => simp
  | _ :: _ :: _ => simp
  | [c] =>
    simp only
    split_ifs
    · simp only [Option.bind_some, bind_eq_ok, pure_ok, required_ok, Except.ok.injEq]
      cases g with
      | box v => simp only [box_iff, Sdf.Geom.box.injEq, exists_eq_right]
      | _ => simpa [encGeom] using read_other (of_decide_eq_true rfl)
    · simp only [Option.bind_some, bind_eq_ok, pure_ok, Except.ok.injEq]
      cases g with
      | cylinder r l => simp [cylinder_iff]
      | _ => simpa [encGeom] using read_other (of_decide_eq_true rfl)
    · simp only [Option.bind_some, bind_eq_ok, pure_ok, Except.ok.injEq]
      cases g with
      | sphere r => simp [sphere_iff]
      | _ => simpa [encGeom] using read_other (of_decide_eq_true rfl)
    · simp only [Option.bind_some, bind_eq_ok, pure_ok, required_ok, Except.ok.injEq]
      cases g with
      | mesh f o =>
        rw [mesh_iff]
        constructor
        · rintro ⟨⟨d, h1, rfl⟩, h2⟩
          exact ⟨d, h1, _, h2, rfl⟩
        · rintro ⟨d, h1, _, h2, h3⟩
          cases h3
          exact ⟨⟨d, h1, rfl⟩, h2⟩
      | _ => simpa [encGeom] using read_other (of_decide_eq_true rfl)
    · simp

theorem rowGeom {g : Sdf.Geom} :
    scalVal { xmlVar := n!"geometry", vt := geometricT (geometries F) } n = some (encGeom F g) ↔
      ∃ c, n.scalar n!"geometry" = some c ∧ Sdf.readGeom F.parse c = .ok g :=
  scal_req (enc := encGeom F) fun _ _ => geom_iff

theorem strElem_some {k : Name} : (scalVal { xmlVar := k, vt := strT F, required := false } n).isSome :=
  scalVal_opt.2 fun _ _ => rfl

theorem strAttr_some {k : Name} : (attrVal { xmlVar := k, vt := strT F, required := false } n).isSome := by
  simp only [attrVal]
  cases n.attr k <;> simp [strT, VType.ofString]

theorem script_some : ((script F).read n).isSome := by
  rw [Cls.read_isSome script_proper (chk := fun _ => true) fun _ _ => rfl, show (script F).aggregates = [] from rfl, Cls.aggVals_nil]
  exact ⟨all![], all![strElem_some, strElem_some], _, rfl, rfl⟩

theorem material_some : ((material F).read n).isSome := by
  rw [Cls.read_isSome material_proper (chk := fun _ => true) fun _ _ => rfl, show (material F).aggregates = [] from rfl,
    Cls.aggVals_nil]
  exact ⟨all![strAttr_some], all![scalVal_opt.2 fun _ _ => script_some], _, rfl, rfl⟩

/-- the object is this visual -/
def VisualIs (F : Fmt) (v : PVal) (x : Sdf.Vis) : Prop :=
  ∃ name m, v = (visual F).inst [encO .str name, encGeom F x.geometry, m, encO encPose x.pose]

theorem visual_iff {x : Sdf.Vis} : Sdf.readVisual F.parse n = .ok x ↔ ∃ v, (visual F).read n = some v ∧ VisualIs F v x := by
  have rows : ∀ name m, (visual F).read n = some ((visual F).inst [encO .str name, encGeom F x.geometry, m, encO encPose x.pose]) ↔
      (n.attr n!"name" = name ∧ True) ∧ (∃ c, n.scalar n!"geometry" = some c ∧ Sdf.readGeom F.parse c = .ok x.geometry) ∧
      scalVal { xmlVar := n!"material", vt := (material F).type, required := false } n = some m ∧
      optional (n.scalar n!"pose") (Sdf.readPose F.parse) = .ok x.pose ∧ True := fun name m =>
    Cls.read_leaf visual_proper (xs := [_]) (ys := [_, _, _]) rfl rfl (of_decide_eq_true rfl) rfl
      rows![rowN] rows![rowGeom, Iff.rfl, rowP] rfl
  simp only [Sdf.readVisual, bind_eq_ok, pure_ok, required_ok, Except.ok.injEq]
  constructor
  · rintro ⟨c, h1, g, h2, p, h3, rfl⟩
    obtain ⟨m, hm⟩ := Option.isSome_iff_exists.1 (scalVal_opt.2 fun c _ => material_some (F := F) (n := c) :
      (scalVal { xmlVar := n!"material", vt := (material F).type, required := false } n).isSome)
    exact ⟨_, (rows _ m).2 ⟨⟨rfl, trivial⟩, ⟨c, h1, h2⟩, hm, h3, trivial⟩, _, m, rfl⟩
  · rintro ⟨v, hv, name, m, rfl⟩
    obtain ⟨-, ⟨c, h1, h2⟩, -, h3, -⟩ := (rows _ _).1 hv
    exact ⟨c, h1, _, h2, _, h3, rfl⟩

/-- the object is this collision -/
def CollisionIs (F : Fmt) (v : PVal) (x : Sdf.Vis) : Prop :=
  ∃ name, v = (collision F).inst [encO .str name, encGeom F x.geometry, encO encPose x.pose]

theorem collision_iff {x : Sdf.Vis} :
    Sdf.readCollision F.parse n = .ok x ↔ ∃ v, (collision F).read n = some v ∧ CollisionIs F v x := by
  have rows : ∀ name, (collision F).read n = some ((collision F).inst [encO .str name, encGeom F x.geometry, encO encPose x.pose]) ↔
      (n.attr n!"name" = name ∧ True) ∧ (∃ c, n.scalar n!"geometry" = some c ∧ Sdf.readGeom F.parse c = .ok x.geometry) ∧
      optional (n.scalar n!"pose") (Sdf.readPose F.parse) = .ok x.pose ∧ True := fun name =>
    Cls.read_leaf collision_proper (xs := [_]) (ys := [_, _]) rfl rfl (of_decide_eq_true rfl) rfl
      rows![rowN] rows![rowGeom, rowP] rfl
  simp only [Sdf.readCollision, Sdf.readVisual, bind_eq_ok, pure_ok, required_ok, Except.ok.injEq]
  constructor
  · rintro ⟨c, h1, g, h2, p, h3, rfl⟩
    exact ⟨_, (rows _).2 ⟨⟨rfl, trivial⟩, ⟨c, h1, h2⟩, h3, trivial⟩, _, rfl⟩
  · rintro ⟨v, hv, name, rfl⟩
    obtain ⟨-, ⟨c, h1, h2⟩, h3, -⟩ := (rows _).1 hv
    exact ⟨c, h1, _, h2, _, h3, rfl⟩

/-- `Limit` -/
def encLimit (F : Fmt) (m : Sdf.Limit) : PVal := (limit F).inst [encO .num m.lower, encO .num m.upper]

theorem limit_iff {m : Sdf.Limit} : (limit F).read n = some (encLimit F m) ↔ Sdf.readLimit F.parse n = .ok m := by
  refine (Cls.read_leaf limit_proper (xs := []) (ys := [_, _]) rfl rfl (of_decide_eq_true rfl) rfl
    rows![] rows![rowO, rowO] rfl).trans ?_
  simp only [Sdf.readLimit, bind_eq_ok, pure_ok, Except.ok.injEq, and_true, true_and]
  constructor
  · rintro ⟨h1, h2⟩
    exact ⟨_, h1, _, h2, rfl⟩
  · rintro ⟨_, h1, _, h2, rfl⟩
    exact ⟨h1, h2⟩

/-- `Dynamics` -/
def encDynamics (F : Fmt) (m : Sdf.Dynamics) : PVal := (dynamics F).inst [encO .num m.damping, encO .num m.friction]

theorem dynamics_iff {m : Sdf.Dynamics} : (dynamics F).read n = some (encDynamics F m) ↔ Sdf.readDynamics F.parse n = .ok m := by
  refine (Cls.read_leaf dynamics_proper (xs := []) (ys := [_, _]) rfl rfl (of_decide_eq_true rfl) rfl
    rows![] rows![rowO, rowO] rfl).trans ?_
  simp only [Sdf.readDynamics, bind_eq_ok, pure_ok, Except.ok.injEq, and_true, true_and]
  constructor
  · rintro ⟨h1, h2⟩
    exact ⟨_, h1, _, h2, rfl⟩
  · rintro ⟨_, h1, _, h2, rfl⟩
    exact ⟨h1, h2⟩

/-- the object is this axis -/
def AxisIs (F : Fmt) (v : PVal) (x : V3 × Option Sdf.Limit × Option Sdf.Dynamics) : Prop :=
  ∃ b, v = (axis F).inst [encV3 x.1, encO (encLimit F) x.2.1, encO (encDynamics F) x.2.2, b]

theorem axis_iff {x : V3 × Option Sdf.Limit × Option Sdf.Dynamics} :
    Sdf.readAxis F.parse n = .ok x ↔ ∃ v, (axis F).read n = some v ∧ AxisIs F v x := by
  have rows : ∀ b, (axis F).read n = some ((axis F).inst [encV3 x.1, encO (encLimit F) x.2.1, encO (encDynamics F) x.2.2, b]) ↔
      True ∧ (∃ c, n.scalar n!"xyz" = some c ∧ readV3 F.parse c.text = .ok x.1) ∧
      optional (n.scalar n!"limit") (Sdf.readLimit F.parse) = .ok x.2.1 ∧
      optional (n.scalar n!"dynamics") (Sdf.readDynamics F.parse) = .ok x.2.2 ∧
      scalVal { xmlVar := n!"use_parent_model_frame", vt := boolT F, required := false } n = some b ∧ True := fun b =>
    Cls.read_leaf axis_proper (xs := []) (ys := [_, _, _, _]) rfl rfl (of_decide_eq_true rfl) rfl
      rows![] rows![rowV, scal_opt (enc := encLimit F) (fun _ => inst_ne) read_nn fun _ _ => limit_iff,
        scal_opt (enc := encDynamics F) (fun _ => inst_ne) read_nn fun _ _ => dynamics_iff, Iff.rfl] rfl
  simp only [Sdf.readAxis, bind_eq_ok, pure_ok, required_ok, Except.ok.injEq]
  constructor
  · rintro ⟨c, h1, v, h2, l, h3, d, h4, rfl⟩
    obtain ⟨b, hb⟩ := Option.isSome_iff_exists.1 (scalVal_opt.2 fun c _ => rfl :
      (scalVal { xmlVar := n!"use_parent_model_frame", vt := boolT F, required := false } n).isSome)
    exact ⟨_, (rows b).2 ⟨trivial, ⟨c, h1, h2⟩, h3, h4, hb, trivial⟩, b, rfl⟩
  · rintro ⟨v, hv, b, rfl⟩
    obtain ⟨-, ⟨c, h1, h2⟩, h3, h4, -⟩ := (rows _).1 hv
    exact ⟨c, h1, _, h2, _, h3, _, h4, rfl⟩

/-- the object is this joint -/
def JointIs (F : Fmt) (v : PVal) (j : Sdf.Jnt) : Prop :=
  ∃ a, AxisIs F a (j.axis, j.limit, j.dynamics) ∧
    v = (joint F).inst [encO .str j.name, encO .str j.type, a, .str j.parent, .str j.child, encO encPose j.pose]

theorem joint_iff {j : Sdf.Jnt} : Sdf.readJoint F.parse n = .ok j ↔ ∃ v, (joint F).read n = some v ∧ JointIs F v j := by
  have rows : ∀ a, (joint F).read n = some ((joint F).inst [encO .str j.name, encO .str j.type, a, .str j.parent, .str j.child,
      encO encPose j.pose]) ↔
      (n.attr n!"name" = j.name ∧ n.attr n!"type" = j.type ∧ True) ∧
      scalVal { xmlVar := n!"axis", vt := (axis F).type } n = some a ∧
      (∃ c, n.scalar n!"parent" = some c ∧ readStr c.text = j.parent) ∧
      (∃ c, n.scalar n!"child" = some c ∧ readStr c.text = j.child) ∧
      optional (n.scalar n!"pose") (Sdf.readPose F.parse) = .ok j.pose ∧ True := fun a =>
    Cls.read_leaf joint_proper (xs := [_, _]) (ys := [_, _, _, _]) rfl rfl (of_decide_eq_true rfl) rfl
      rows![rowN, rowN] rows![Iff.rfl, rowT, rowT, rowP] rfl
  have ax : ∀ a, scalVal { xmlVar := n!"axis", vt := (axis F).type } n = some a ↔
      ∃ c, n.scalar n!"axis" = some c ∧ (axis F).read c = some a := by
    intro a
    simp only [scalVal]
    cases n.scalar n!"axis" <;> simp [Cls.type]
  simp only [Sdf.readJoint, bind_eq_ok, pure_ok, required_ok, Except.ok.injEq]
  constructor
  · rintro ⟨c, h1, x, h2, d, h3, e, h4, p, h5, rfl⟩
    obtain ⟨a, ha, ha'⟩ := axis_iff.1 h2
    exact ⟨_, (rows a).2 ⟨⟨rfl, rfl, trivial⟩, (ax a).2 ⟨c, h1, ha⟩, ⟨d, h3, rfl⟩, ⟨e, h4, rfl⟩, h5, trivial⟩, a, ha', rfl⟩
  · rintro ⟨v, hv, a, ha, rfl⟩
    obtain ⟨⟨h1, h2, -⟩, h3, ⟨d, h4, h4'⟩, ⟨e, h5, h5'⟩, h6, -⟩ := (rows _).1 hv
    obtain ⟨c, hc, hc'⟩ := (ax a).1 h3
    refine ⟨c, hc, _, axis_iff.2 ⟨a, hc', ha⟩, d, h4, e, h5, _, h6, ?_⟩
    rw [h1, h2, h4', h5']

/-- the object is this link -/
def LinkIs (F : Fmt) (v : PVal) (l : Sdf.Lnk) : Prop :=
  ∃ k ord, v = (link F).inst [encO .str l.name, k, encInertial F l.inertial, encO encPose l.pose] ord ∧
    List.Forall₂ (VisualIs F) (vals n!"visual" ord) l.visuals ∧ List.Forall₂ (CollisionIs F) (vals n!"collision" ord) l.collisions

theorem link_iff {l : Sdf.Lnk} : Sdf.readLink F.parse n = .ok l ↔ ∃ v, (link F).read n = some v ∧ LinkIs F v l := by
  have hn : ((link F).aggregates.map Param.xmlVar).Nodup := of_decide_eq_true rfl
  have rows : ∀ {a : Option Name} {k i p ord}, (link F).read n = some ((link F).inst [encO .str a, k, encInertial F i, encO encPose p] ord) ↔
      n.attr n!"name" = a ∧ attrVal { xmlVar := n!"kinematic", vt := boolT F, required := false } n = some k ∧
      (∃ c, n.scalar n!"inertial" = some c ∧ Sdf.readInertial F.parse c = .ok i) ∧
      optional (n.scalar n!"pose") (Sdf.readPose F.parse) = .ok p ∧
      aggVals (link F).aggregates n.children = some ord := by
    intro a k i p ord
    refine (Cls.read_rows link_proper (xs := [_, _]) (ys := [_, _]) rfl rfl (of_decide_eq_true rfl)).trans ?_
    have h1 : List.Forall₂ (fun p x => attrVal p n = some x) (link F).attributes [encO PVal.str a, k] ↔ _ := rows![rowN, Iff.rfl]
    have h2 : List.Forall₂ (fun p x => scalVal p n = some x) (link F).scalars [encInertial F i, encO encPose p] ↔ _ :=
      rows![scal_req (enc := encInertial F) (read := Sdf.readInertial F.parse) fun _ _ => inertial_iff, rowP]
    rw [h1, h2]
    have h3 : (link F).check ((link F).inst ([encO .str a, k] ++ [encInertial F i, encO encPose p]) ord) = true := rfl
    rw [h3]
    simp only [and_true, and_assoc]
  have hv : { xmlVar := n!"visual", vt := (visual F).type, required := false, var := n!"visuals" } ∈ (link F).aggregates := by simp [link]
  have hc : { xmlVar := n!"collision", vt := (collision F).type, required := false, var := n!"collisions" } ∈ (link F).aggregates := by
    simp [link]
  simp only [Sdf.readLink, bind_eq_ok, pure_ok, required_ok, Except.ok.injEq]
  constructor
  · rintro ⟨c, h1, i, h2, vs, h3, cs, h4, p, h5, rfl⟩
    obtain ⟨ws, h3, h3'⟩ := (mapM_rel fun _ _ => visual_iff).1 h3
    obtain ⟨ds, h4, h4'⟩ := (mapM_rel fun _ _ => collision_iff).1 h4
    obtain ⟨ord, ho⟩ := agg_some (ps := (link F).aggregates) (cs := n.children) all![
      fun c hc ht => mapM_isSome h3 c (List.mem_filter.2 ⟨hc, by simpa using ht⟩),
      fun c hc ht => mapM_isSome h4 c (List.mem_filter.2 ⟨hc, by simpa using ht⟩)]
    obtain ⟨k, hk⟩ : ∃ k, attrVal { xmlVar := n!"kinematic", vt := boolT F, required := false } n = some k := by
      simp only [attrVal]
      cases n.attr n!"kinematic" <;> simp [boolT, VType.ofString]
    refine ⟨_, rows.2 ⟨rfl, hk, ⟨c, h1, h2⟩, h5, ho⟩, k, ord, rfl, ?_, ?_⟩
    · rw [Option.some.inj ((agg_vals hn hv ho).symm.trans h3)]
      exact h3'
    · rw [Option.some.inj ((agg_vals hn hc ho).symm.trans h4)]
      exact h4'
  · rintro ⟨v, hr, k, ord, rfl, h1, h2⟩
    obtain ⟨h3, -, ⟨c, h4, h5⟩, h6, h7⟩ := rows.1 hr
    refine ⟨c, h4, _, h5, l.visuals, (mapM_rel fun _ _ => visual_iff).2 ⟨_, agg_vals hn hv h7, h1⟩, l.collisions,
      (mapM_rel fun _ _ => collision_iff).2 ⟨_, agg_vals hn hc h7, h2⟩, _, h6, ?_⟩
    rw [h3]

/-- the object is this model -/
def ModelIs (F : Fmt) (v : PVal) (m : Sdf.Model) : Prop :=
  ∃ name p ord, v = (model F).inst [encO .str name, encO encPose p] ord ∧
    List.Forall₂ (LinkIs F) (vals n!"link" ord) m.links ∧ List.Forall₂ (JointIs F) (vals n!"joint" ord) m.joints

theorem model_iff {m : Sdf.Model} : Sdf.readModel F.parse n = .ok m ↔ ∃ v, (model F).read n = some v ∧ ModelIs F v m := by
  have hn : ((model F).aggregates.map Param.xmlVar).Nodup := of_decide_eq_true rfl
  have rows : ∀ {a : Option Name} {p ord}, (model F).read n = some ((model F).inst [encO .str a, encO encPose p] ord) ↔
      n.attr n!"name" = a ∧ optional (n.scalar n!"pose") (Sdf.readPose F.parse) = .ok p ∧
      aggVals (model F).aggregates n.children = some ord := by
    intro a p ord
    refine (Cls.read_rows model_proper (xs := [_]) (ys := [_]) rfl rfl (of_decide_eq_true rfl)).trans ?_
    have h1 : List.Forall₂ (fun p x => attrVal p n = some x) (model F).attributes [encO PVal.str a] ↔ _ := rows![rowN]
    have h2 : List.Forall₂ (fun p x => scalVal p n = some x) (model F).scalars [encO encPose p] ↔ _ := rows![rowP]
    rw [h1, h2]
    have h3 : (model F).check ((model F).inst ([encO .str a] ++ [encO encPose p]) ord) = true := rfl
    rw [h3]
    simp only [and_true, and_assoc]
  have hl : { xmlVar := n!"link", vt := (link F).type, required := false, var := n!"links" } ∈ (model F).aggregates := by simp [model]
  have hj : { xmlVar := n!"joint", vt := (joint F).type, required := false, var := n!"joints" } ∈ (model F).aggregates := by
    simp [model]
  simp only [Sdf.readModel, bind_eq_ok, pure_ok, Except.ok.injEq]
  constructor
  · rintro ⟨ls, h3, js, h4, p, h5, rfl⟩
    obtain ⟨ws, h3, h3'⟩ := (mapM_rel fun _ _ => link_iff).1 h3
    obtain ⟨ds, h4, h4'⟩ := (mapM_rel fun _ _ => joint_iff).1 h4
    obtain ⟨ord, ho⟩ := agg_some (ps := (model F).aggregates) (cs := n.children) all![
      fun c hc ht => mapM_isSome h3 c (List.mem_filter.2 ⟨hc, by simpa using ht⟩),
      fun c hc ht => mapM_isSome h4 c (List.mem_filter.2 ⟨hc, by simpa using ht⟩)]
    refine ⟨_, rows.2 ⟨rfl, h5, ho⟩, _, p, ord, rfl, ?_, ?_⟩
    · rw [Option.some.inj ((agg_vals hn hl ho).symm.trans h3)]
      exact h3'
    · rw [Option.some.inj ((agg_vals hn hj ho).symm.trans h4)]
      exact h4'
  · rintro ⟨v, hr, a, p, ord, rfl, h1, h2⟩
    obtain ⟨-, h3, h4⟩ := rows.1 hr
    exact ⟨m.links, (mapM_rel fun _ _ => link_iff).2 ⟨_, agg_vals hn hl h4, h1⟩, m.joints,
      (mapM_rel fun _ _ => joint_iff).2 ⟨_, agg_vals hn hj h4, h2⟩, p, h3, rfl⟩

/-- the object is a description with this model -/
def SdfIs (F : Fmt) (v : PVal) (m : Sdf.Model) : Prop :=
  ∃ version x, v = (sdf F).inst [encO .str version, x] ∧ ModelIs F x m

theorem sdf_iff {m : Sdf.Model} : Sdf.readSdf F.parse n = .ok m ↔ ∃ v, (sdf F).read n = some v ∧ SdfIs F v m := by
  have rows : ∀ {a : Option Name} {x}, (sdf F).read n = some ((sdf F).inst [encO .str a, x]) ↔
      (n.attr n!"version" = a ∧ True) ∧ scalVal { xmlVar := n!"model", vt := (model F).type, required := false } n = some x ∧ True :=
    fun {a x} => Cls.read_leaf sdf_proper (xs := [_]) (ys := [_]) rfl rfl (of_decide_eq_true rfl) rfl
      rows![rowN] rows![Iff.rfl] rfl
  have hm : ∀ {x}, ModelIs F x m → (scalVal { xmlVar := n!"model", vt := (model F).type, required := false } n = some x ↔
      ∃ c, n.scalar n!"model" = some c ∧ (model F).read c = some x) := by
    rintro x ⟨_, _, _, rfl, -⟩
    simp only [scalVal]
    cases n.scalar n!"model" <;> simp [Cls.type, Cls.inst]
  simp only [Sdf.readSdf, bind_eq_ok]
  constructor
  · rintro ⟨o, h1, h2⟩
    cases o with
    | none => cases h2
    | some m' =>
      obtain rfl := Except.ok.inj h2
      obtain ⟨c, hc, hr⟩ := optional_some.1 h1
      obtain ⟨v, hv, hv'⟩ := model_iff.1 hr
      exact ⟨_, rows.2 ⟨⟨rfl, trivial⟩, (hm hv').2 ⟨c, hc, hv⟩, trivial⟩, _, v, rfl, hv'⟩
  · rintro ⟨v, hv, a, x, rfl, hx⟩
    obtain ⟨-, h1, -⟩ := rows.1 hv
    obtain ⟨c, hc, hr⟩ := (hm hx).1 h1
    exact ⟨some m, optional_some.2 ⟨c, hc, model_iff.2 ⟨x, hr, hx⟩⟩, rfl⟩

/-! ### Objects without `False` -/

theorem poseElem_true : ∀ x, scalVal (poseElem F) n = some x → ¬ HasFalse x :=
  scalVal_true (fun _ _ => ofString_true vecT_true _) none_true

theorem inertia_true : (inertia F).type.True' := Cls.true' inertia_proper all![] all![⟨ofString_true floatT_true, none_true⟩,
  ⟨ofString_true floatT_true, none_true⟩, ⟨ofString_true floatT_true, none_true⟩, ⟨ofString_true floatT_true, none_true⟩,
  ⟨ofString_true floatT_true, none_true⟩, ⟨ofString_true floatT_true, none_true⟩] all![] (of_decide_eq_true rfl)
theorem inertial_true : (inertial F).type.True' := Cls.true' inertial_proper all![] all![⟨ofString_true floatT_true, none_true⟩,
  ⟨inertia_true, none_true⟩, ⟨ofString_true vecT_true, none_true⟩] all![] (of_decide_eq_true rfl)
theorem box_true : (box F).type.True' := Cls.true' box_proper all![] all![⟨ofString_true vecT_true, none_true⟩] all![]
  (of_decide_eq_true rfl)
theorem cylinder_true : (cylinder F).type.True' := Cls.true' cylinder_proper all![]
  all![⟨ofString_true floatT_true, none_true⟩, ⟨ofString_true floatT_true, none_true⟩] all![] (of_decide_eq_true rfl)
theorem sphere_true : (sphere F).type.True' := Cls.true' sphere_proper all![] all![⟨ofString_true floatT_true, none_true⟩] all![]
  (of_decide_eq_true rfl)
theorem mesh_true : (mesh F).type.True' := Cls.true' mesh_proper all![]
  all![⟨ofString_true strT_true, none_true⟩, ⟨ofString_true vecT_true, none_true⟩] all![] (of_decide_eq_true rfl)
theorem geometric_true : (geometricT (geometries F)).True' := geometricT_true all![box_true, cylinder_true, sphere_true, mesh_true]
theorem script_true : (script F).type.True' := Cls.true' script_proper all![]
  all![⟨ofString_true strT_true, none_true⟩, ⟨ofString_true strT_true, none_true⟩] all![] (of_decide_eq_true rfl)
theorem material_true : (material F).type.True' := Cls.true' material_proper all![⟨strT_true, none_true⟩]
  all![⟨script_true, none_true⟩] all![] (of_decide_eq_true rfl)
theorem visual_true : (visual F).type.True' := Cls.true' visual_proper all![⟨strT_true, none_true⟩]
  all![⟨geometric_true, none_true⟩, ⟨material_true, none_true⟩, ⟨ofString_true vecT_true, none_true⟩] all![] (of_decide_eq_true rfl)
theorem collision_true : (collision F).type.True' := Cls.true' collision_proper all![⟨strT_true, none_true⟩]
  all![⟨geometric_true, none_true⟩, ⟨ofString_true vecT_true, none_true⟩] all![] (of_decide_eq_true rfl)
theorem dynamics_true : (dynamics F).type.True' := Cls.true' dynamics_proper all![]
  all![⟨ofString_true floatT_true, none_true⟩, ⟨ofString_true floatT_true, none_true⟩] all![] (of_decide_eq_true rfl)
theorem limit_true : (limit F).type.True' := Cls.true' limit_proper all![]
  all![⟨ofString_true floatT_true, none_true⟩, ⟨ofString_true floatT_true, none_true⟩] all![] (of_decide_eq_true rfl)

theorem bool_true {t : Option Name} (h : t ≠ none) (h' : t ≠ some []) : ∀ x, (boolT F).fromString t = some x → ¬ HasFalse x := by
  intro x hx
  obtain rfl := Option.some.inj hx
  match t, h, h' with
  | some (_ :: _), _, _ => rintro ⟨⟩

/-- no `<use_parent_model_frame>` of the `<axis>` is empty -/
def AxisFlags (a : Xml) : Prop := ∀ u, a.scalar n!"use_parent_model_frame" = some u → u.text ≠ none ∧ u.text ≠ some []

theorem axis_true (h : AxisFlags n) : ∀ v, (axis F).read n = some v → ¬ HasFalse v := fun _ hv =>
  Cls.trueAt axis_proper hv all![]
    all![scalVal_true (fun _ _ => ofString_true vecT_true _) none_true, scalVal_true (fun _ _ => limit_true _) none_true,
      scalVal_true (fun _ _ => dynamics_true _) none_true, scalVal_true (fun _ hc => bool_true (F := F) (h _ hc).1 (h _ hc).2) none_true]
    all![] (of_decide_eq_true rfl)

theorem joint_true (h : ∀ a, n.scalar n!"axis" = some a → AxisFlags a) : ∀ v, (joint F).read n = some v → ¬ HasFalse v := fun _ hv =>
  Cls.trueAt joint_proper hv all![attrVal_true strT_true none_true, attrVal_true strT_true none_true]
    all![scalVal_true (fun _ hc => axis_true (h _ hc)) none_true, scalVal_true (fun _ _ => ofString_true strT_true _) none_true,
      scalVal_true (fun _ _ => ofString_true strT_true _) none_true, poseElem_true]
    all![] (of_decide_eq_true rfl)

theorem link_true (h : n.attr n!"kinematic" ≠ some []) : ∀ v, (link F).read n = some v → ¬ HasFalse v := fun _ hv =>
  Cls.trueAt link_proper hv all![attrVal_true strT_true none_true, fun x hx => by
      simp only [attrVal] at hx
      split at hx
      · next s hs => exact bool_true (by simp) (fun e => h (hs.trans e)) x hx
      · obtain rfl := Option.some.inj hx
        exact none_true]
    all![scalVal_true (fun _ _ => inertial_true _) none_true, poseElem_true]
    all![fun _ _ _ => visual_true _, fun _ _ _ => collision_true _] (of_decide_eq_true rfl)

/-- no `kinematic` attribute and no `<use_parent_model_frame>` of the `<model>` is empty -/
def ModelFlags (m : Xml) : Prop :=
  (∀ l ∈ m.aggregate n!"link", l.attr n!"kinematic" ≠ some []) ∧
  ∀ j ∈ m.aggregate n!"joint", ∀ a, j.scalar n!"axis" = some a → AxisFlags a

theorem model_true (h : ModelFlags n) : ∀ v, (model F).read n = some v → ¬ HasFalse v := fun _ hv =>
  Cls.trueAt model_proper hv all![attrVal_true strT_true none_true] all![poseElem_true]
    all![fun c hc ht => link_true (h.1 c (List.mem_filter.2 ⟨hc, by simp [ht]⟩)),
      fun c hc ht => joint_true (h.2 c (List.mem_filter.2 ⟨hc, by simp [ht]⟩))] (of_decide_eq_true rfl)

theorem sdf_true (h : ∀ m, n.scalar n!"model" = some m → ModelFlags m) : ∀ v, (sdf F).read n = some v → ¬ HasFalse v := fun _ hv =>
  Cls.trueAt sdf_proper hv all![attrVal_true strT_true none_true] all![scalVal_true (fun _ hc => model_true (h _ hc)) none_true]
    all![] (of_decide_eq_true rfl)

end S
end PK.Reflect
