import Verif.Lemmas.Good
import Verif.Props.Urdf2
import Verif.Props.Sdf2
import Verif.Props.Mjcf2

/-!
# C103: invalid descriptions are rejected
-/

namespace PK
open Spec

theorem reach_map {J K : Type} (f : J → K) (par chi : K → Name) (js : List J) (a : Name) (k : ℕ) (b : Name) :
    Reach par chi (js.map f) a k b → Reach (par ∘ f) (chi ∘ f) js a k b := by
  intro h
  induction h with
  | here => exact .here
  | step k j hj _ ih =>
    obtain ⟨i, hi, rfl⟩ := List.mem_map.1 hj
    exact .step (par := par ∘ f) (chi := chi ∘ f) k i hi ih

theorem isTree_map {J K : Type} (f : J → K) (par chi : K → Name) (links : List Name) (js : List J) (root : Name)
    (h : IsTree links par chi (js.map f) root) : IsTree links (par ∘ f) (chi ∘ f) js root where
  links_nodup := h.links_nodup
  root_mem := h.root_mem
  child_mem j hj := h.child_mem _ (List.mem_map_of_mem hj)
  parent_mem j hj := h.parent_mem _ (List.mem_map_of_mem hj)
  one_parent := by simpa only [List.map_map] using h.one_parent
  root_top j hj := h.root_top _ (List.mem_map_of_mem hj)
  reachable l hl := let ⟨k, hk⟩ := h.reachable l hl; ⟨k, reach_map f par chi js root k l hk⟩

theorem map_eq_of_forall₂ {A B C : Type} {R : A → B → Prop} {S : A → C → Prop} {f : B → C}
    (hf : ∀ a b c, R a b → S a c → f b = c) {l : List A} {l₁ : List B} {l₂ : List C} (h1 : List.Forall₂ R l l₁)
    (h2 : List.Forall₂ S l l₂) : l₁.map f = l₂ := by
  induction h1 generalizing l₂ with
  | nil => cases h2; rfl
  | cons h _ ih =>
    cases h2 with
    | cons h' h2 => rw [List.map_cons, hf _ _ _ h h', ih h2]

namespace Urdf
variable {num : NumParser} {n : Xml}

theorem good_readPose : Good (readPose num n) ↔ Spec.Urdf.Origin num finite n := by
  rw [readPose, good_bind fun _ _ => good_bind fun _ _ => good_pure _]
  simp only [good_optional, good_readV3_some, and_true]
  rfl

theorem good_optOrigin {t : Name} : Good (optional (n.scalar t) (readPose num)) ↔ OptChild n t (Spec.Urdf.Origin num finite) := by
  rw [good_optional]; simp only [good_readPose]; rfl

theorem good_optFloat {k : Name} : Good (optional (n.attr k) fun s => readFloat num (some s)) ↔ OptAttr n k (IsNum num) := by
  rw [good_optional]; simp only [good_readFloat]; rfl

theorem good_readGeom : Good (readGeom num n) ↔ Spec.Urdf.Geometry num finite n := by
  unfold readGeom Spec.Urdf.Geometry
  split
  · next g hg =>
    simp only [hg, List.cons.injEq, and_true, exists_eq_left']
    split
    · next h =>
      rw [good_required]
      simp only [h, good_bind (P := True) fun _ _ => good_pure _, good_readV3_some, HasAttr]
      simp
    split
    · next h0 h =>
      rw [good_bind fun _ _ => good_bind fun _ _ => good_pure _, good_floatAttr, good_floatAttr]
      simp [h]
    split
    · next h0 h1 h =>
      rw [good_bind fun _ _ => good_pure _, good_floatAttr]
      simp [h]
    split
    · next h0 h1 h2 h =>
      rw [good_required]
      simp only [h, good_bind (P := True) fun _ _ => good_pure _, good_optional, good_readV3_some, HasAttr, OptAttr]
      simp
    split
    · next h0 h1 h2 h3 h =>
      rw [good_bind fun _ _ => good_bind fun _ _ => good_pure _, good_floatAttr, good_floatAttr]
      simp [h]
    · next h0 h1 h2 h3 h4 => simp [h0, h1, h2, h3, h4, good_error]
  · next h =>
    rw [good_error, false_iff]
    rintro ⟨g, hg, -⟩
    exact h g hg

theorem good_readMaterial : Good (readMaterial num n) ↔ Spec.Urdf.Material num finite n := by
  unfold readMaterial Spec.Urdf.Material
  rw [good_required]
  simp only [good_bind (P := ∀ c, n.scalar n!"texture" = some c → HasAttr c n!"filename" anyName) fun _ _ =>
    (good_bind (P := True) fun _ _ => good_pure _).trans (by
      rw [and_true, good_optional]
      refine forall_congr' fun c => imp_congr_right fun _ => ?_
      have := good_required (o := c.attr n!"filename") (f := fun s => (pure s : Except Err Name))
      rw [bind_pure] at this
      rw [this]; simp [good_pure, HasAttr])]
  simp only [good_optional, good_required, good_bind (P := True) fun _ _ => good_pure _, good_readVec, and_true, HasAttr, OptChild]
  simp

theorem good_optMaterial {t : Name} : Good (optional (n.scalar t) (readMaterial num)) ↔ OptChild n t (Spec.Urdf.Material num finite) := by
  rw [good_optional]; simp only [good_readMaterial]; rfl

theorem good_readVisual : Good (readVisual num n) ↔ Spec.Urdf.Visual num finite n := by
  unfold readVisual Spec.Urdf.Visual
  rw [good_bind fun _ _ => good_required' (P := fun g => Spec.Urdf.Geometry num finite g ∧ OptChild n n!"material" (Spec.Urdf.Material num finite))
    fun g => (good_bind fun _ _ => (good_bind fun _ _ => good_pure _).trans (by rw [and_true, good_optMaterial])).trans
      (by rw [good_readGeom]), good_optOrigin]
  constructor
  · rintro ⟨h1, g, hg, h2, h3⟩; exact ⟨h1, ⟨g, hg, h2⟩, h3⟩
  · rintro ⟨h1, ⟨g, hg, h2⟩, h3⟩; exact ⟨h1, g, hg, h2, h3⟩

theorem good_readCollision : Good (readCollision num n) ↔ Spec.Urdf.Collision num finite n := by
  unfold readCollision Spec.Urdf.Collision
  rw [good_bind fun _ _ => good_required' (P := Spec.Urdf.Geometry num finite) fun g =>
    (good_bind fun _ _ => good_pure _).trans (by rw [and_true, good_readGeom]), good_optOrigin]
  rfl

theorem good_readInertial : Good (readInertial num n) ↔ Spec.Urdf.Inertial num finite n := by
  unfold readInertial Spec.Urdf.Inertial
  rw [good_bind fun _ _ => good_required' (P := fun m => HasAttr m n!"value" (IsNum num) ∧
      ∀ i, n.scalar n!"inertia" = some i → HasAttr i n!"ixx" (IsNum num) ∧ HasAttr i n!"ixy" (IsNum num) ∧
        HasAttr i n!"ixz" (IsNum num) ∧ HasAttr i n!"iyy" (IsNum num) ∧ HasAttr i n!"iyz" (IsNum num) ∧
        HasAttr i n!"izz" (IsNum num)) fun g => ?_, good_optOrigin]
  · constructor
    · rintro ⟨h1, g, hg, h2, h3⟩; exact ⟨h1, ⟨g, hg, h2⟩, h3⟩
    · rintro ⟨h1, ⟨g, hg, h2⟩, h3⟩; exact ⟨h1, g, hg, h2, h3⟩
  · rw [good_bind fun _ _ => good_bind fun _ _ => good_pure _, good_readFloat', good_optional]
    simp only [readInertia, and_true, HasAttr]
    refine and_congr_right fun _ => forall_congr' fun i => imp_congr_right fun _ => ?_
    rw [good_bind fun _ _ => good_bind fun _ _ => good_bind fun _ _ => good_bind fun _ _ => good_bind fun _ _ =>
      good_bind fun _ _ => good_pure _]
    simp only [good_floatAttr, and_true, HasAttr]

theorem good_readLink : Good (readLink num n) ↔ Spec.Urdf.Link num finite n := by
  unfold readLink Spec.Urdf.Link
  rw [good_required' (P := fun _ => OptChild n n!"origin" (Spec.Urdf.Origin num finite) ∧ EachChild n n!"visual" (Spec.Urdf.Visual num finite) ∧
    EachChild n n!"collision" (Spec.Urdf.Collision num finite) ∧ OptChild n n!"inertial" (Spec.Urdf.Inertial num finite)) fun _ => ?_]
  · simp [HasAttr]
  · rw [good_bind fun _ _ => good_bind fun _ _ => good_bind fun _ _ => good_bind fun _ _ => good_pure _, good_optOrigin,
      good_mapM, good_mapM, good_optional]
    simp only [good_readVisual, good_readCollision, good_readInertial, and_true]
    rfl

theorem jointTypes_mem (t : Name) : t ∈ jointTypes ↔
    t ∈ [n!"revolute", n!"continuous", n!"prismatic", n!"fixed", n!"floating", n!"planar", n!"unknown"] := by
  simp only [jointTypes, List.mem_cons, List.not_mem_nil, or_false]
  tauto

theorem good_readLimit : Good (readLimit num n) ↔ HasAttr n n!"effort" (IsNum num) ∧ OptAttr n n!"lower" (IsNum num) ∧
    OptAttr n n!"upper" (IsNum num) ∧ HasAttr n n!"velocity" (IsNum num) := by
  unfold readLimit
  rw [good_bind fun _ _ => good_bind fun _ _ => good_bind fun _ _ => good_bind fun _ _ => good_pure _]
  simp only [good_floatAttr, good_optional, good_readFloat, and_true, OptAttr]

theorem good_readMimic : Good (readMimic num n) ↔ HasAttr n n!"joint" anyName ∧ OptAttr n n!"multiplier" (IsNum num) ∧
    OptAttr n n!"offset" (IsNum num) := by
  unfold readMimic
  rw [good_required' fun _ => good_bind fun _ _ => good_bind fun _ _ => good_pure _]
  simp only [good_optional, good_readFloat, and_true, OptAttr, HasAttr, exists_and_right]

theorem good_readDynamics : Good (readDynamics num n) ↔ OptAttr n n!"damping" (IsNum num) ∧ OptAttr n n!"friction" (IsNum num) := by
  unfold readDynamics optFloat
  rw [good_bind fun _ _ => good_bind fun _ _ => good_pure _, good_optFloat, good_optFloat, and_true]

theorem good_readSafety : Good (readSafety num n) ↔ HasAttr n n!"k_velocity" (IsNum num) ∧ OptAttr n n!"k_position" (IsNum num) ∧
    OptAttr n n!"soft_lower_limit" (IsNum num) ∧ OptAttr n n!"soft_upper_limit" (IsNum num) := by
  unfold readSafety optFloat
  rw [good_bind fun _ _ => good_bind fun _ _ => good_bind fun _ _ => good_bind fun _ _ => good_pure _]
  simp only [good_floatAttr, good_optFloat, and_true]

theorem good_readCalibration : Good (readCalibration num n) ↔
    OptAttr n n!"rising" (IsNum num) ∧ OptAttr n n!"falling" (IsNum num) := by
  unfold readCalibration optFloat
  rw [good_bind fun _ _ => good_bind fun _ _ => good_pure _, good_optFloat, good_optFloat, and_true]

theorem good_require {A B : Type} {o : Option A} {f : A → Except Err B} {P : Prop} (h : ∀ a, Good (f a) ↔ P) :
    Good (required o >>= f) ↔ (∃ a, o = some a) ∧ P := by
  rw [good_required' h]; simp

theorem good_ite {A : Type} {y : A} {P : Prop} [Decidable P] :
    Good (if P then pure y else .error .parseError : Except Err A) ↔ P := by
  split <;> simp_all [good_pure, good_error]

theorem good_readJoint : Good (readJoint num n) ↔ Spec.Urdf.Joint num finite n := by
  unfold readJoint
  rw [good_require (P := ∃ t, n.attr n!"type" = some t ∧ OptChild n n!"origin" (Spec.Urdf.Origin num finite) ∧
    OptChild n n!"axis" (fun a => HasAttr a n!"xyz" (IsVec num finite 3)) ∧
    HasChild n n!"parent" anyXml ∧ HasChild n n!"child" anyXml ∧
    OptChild n n!"limit" (fun l => HasAttr l n!"effort" (IsNum num) ∧ OptAttr l n!"lower" (IsNum num) ∧
      OptAttr l n!"upper" (IsNum num) ∧ HasAttr l n!"velocity" (IsNum num)) ∧
    OptChild n n!"dynamics" (fun d => OptAttr d n!"damping" (IsNum num) ∧ OptAttr d n!"friction" (IsNum num)) ∧
    OptChild n n!"safety_controller" (fun s => HasAttr s n!"k_velocity" (IsNum num) ∧ OptAttr s n!"k_position" (IsNum num) ∧
      OptAttr s n!"soft_lower_limit" (IsNum num) ∧ OptAttr s n!"soft_upper_limit" (IsNum num)) ∧
    OptChild n n!"calibration" (fun c => OptAttr c n!"rising" (IsNum num) ∧ OptAttr c n!"falling" (IsNum num)) ∧
    OptChild n n!"mimic" (fun m => HasAttr m n!"joint" anyName ∧ OptAttr m n!"multiplier" (IsNum num) ∧
      OptAttr m n!"offset" (IsNum num)) ∧ t ∈ jointTypes) fun _ => good_required' fun t => ?_]
  · simp only [jointTypes_mem, Spec.Urdf.Joint, HasAttr, and_true]
    constructor
    · rintro ⟨h1, t, h2, h3, h4, h5, h6, h7, h8, h9, h10, h11, h12⟩
      exact ⟨h1, ⟨t, h2, h12⟩, h3, h4, h5, h6, h7, h8, h9, h10, h11⟩
    · rintro ⟨h1, ⟨t, h2, h12⟩, h3, h4, h5, h6, h7, h8, h9, h10, h11⟩
      exact ⟨h1, t, h2, h3, h4, h5, h6, h7, h8, h9, h10, h11, h12⟩
  · rw [good_bind fun _ _ => good_bind fun _ _ => good_require fun _ =>
      good_require fun _ => good_bind fun _ _ => good_bind fun _ _ => good_bind fun _ _ => good_bind fun _ _ =>
      good_bind fun _ _ => good_ite]
    simp only [good_optional, good_readPose, good_readV3, good_readLimit, good_readDynamics, good_readSafety,
      good_readCalibration, good_readMimic]
    simp only [HasAttr, HasChild, OptChild, and_true]

theorem good_checkTransmissionNew : Good (checkTransmissionNew num n) ↔
    (HasAttr n n!"name" anyName ∧ HasChild n n!"type" anyXml ∧
    (n.aggregate n!"joint" ≠ [] ∧ EachChild n n!"joint" fun j => HasAttr j n!"name" anyName ∧
      j.aggregate n!"hardwareInterface" ≠ []) ∧
    (n.aggregate n!"actuator" ≠ [] ∧ EachChild n n!"actuator" fun a => HasAttr a n!"name" anyName ∧
      OptChild a n!"mechanicalReduction" (HasText (IsNum num)))) := by
  unfold checkTransmissionNew
  have e : ∀ {P : Prop} [Decidable P], Good (if P then .error .parseError else pure () : Except Err Unit) ↔ ¬ P := by
    intro P _
    split <;> simp_all [good_pure, good_error]
  rw [good_require fun _ => good_require fun _ => good_bind fun _ _ => good_bind fun _ _ => e, good_forM, good_forM]
  simp only [good_require fun _ => e, good_require fun _ => good_bind fun _ _ => good_pure _, good_optional, good_readFloat']
  simp only [HasAttr, HasChild, OptChild, EachChild, HasText, and_true, List.isEmpty_iff, Bool.or_eq_true, not_or]
  tauto

theorem good_checkTransmissionPR2 : Good (checkTransmissionPR2 num n) ↔
    (HasAttr n n!"name" anyName ∧ HasAttr n n!"type" anyName ∧ HasChild n n!"joint" anyXml ∧ HasChild n n!"actuator" anyXml ∧
    HasChild n n!"mechanicalReduction" (HasText (IsNum num))) := by
  unfold checkTransmissionPR2
  rw [good_require fun _ => good_require fun _ => good_require fun _ => good_require fun _ => good_bind fun _ _ => good_pure _]
  simp only [good_floatElem, HasAttr, HasChild, and_true]

theorem good_checkTransmission : Good (checkTransmission num n) ↔ Spec.Urdf.Transmission num n := by
  rw [Spec.Urdf.Transmission, ← good_checkTransmissionNew, ← good_checkTransmissionPR2, checkTransmission]
  cases checkTransmissionNew num n with
  | ok a => simp [good_ok]
  | error e =>
    cases checkTransmissionPR2 num n with
    | ok a => simp [good_ok]
    | error e => simp [good_error]

/-- A URDF document is read without an exception exactly when it is valid. -/
theorem good_readRobot (doc : Xml) : Good (readRobot num doc) ↔ Spec.Urdf.Valid num finite doc := by
  unfold readRobot
  rw [good_bind fun _ _ => good_bind fun _ _ => good_bind fun _ _ => good_bind fun _ _ => good_pure _]
  simp only [good_mapM, good_readLink, good_readJoint, good_checkTransmission, good_readMaterial, and_true]
  exact ⟨fun ⟨a, b, c, d⟩ => ⟨a, b, c, d⟩, fun ⟨a, b, c, d⟩ => ⟨a, b, c, d⟩⟩

theorem readRobot_eq {doc : Xml} {r : Robot} (h : readRobot num doc = .ok r) :
    List.Forall₂ (fun x l => readLink num x = .ok l) (doc.aggregate n!"link") r.links ∧
    List.Forall₂ (fun x j => readJoint num x = .ok j) (doc.aggregate n!"joint") r.joints := by
  unfold readRobot at h
  obtain ⟨ls, h1, h⟩ := bind_eq_ok.1 h
  obtain ⟨js, h2, h⟩ := bind_eq_ok.1 h
  obtain ⟨_, -, h⟩ := bind_eq_ok.1 h
  obtain ⟨ms, -, h⟩ := bind_eq_ok.1 h
  cases h
  exact ⟨(Mjcf.mapM_ok_iff _ _ _).1 h1, (Mjcf.mapM_ok_iff _ _ _).1 h2⟩

theorem readLink_name {x : Xml} {l : Lnk} {s : Name} (h : readLink num x = .ok l) (hs : x.attr n!"name" = some s) : l.name = s := by
  unfold readLink at h
  rw [hs, required, ok_bind] at h
  obtain ⟨_, -, h⟩ := bind_eq_ok.1 h
  obtain ⟨_, -, h⟩ := bind_eq_ok.1 h
  obtain ⟨_, -, h⟩ := bind_eq_ok.1 h
  obtain ⟨_, -, h⟩ := bind_eq_ok.1 h
  cases h; rfl

/-- what the record keeps of the declaration -/
def Jnt.decl (j : Jnt) : Decl := ⟨j.name, j.type, j.parent, j.child⟩

theorem readJoint_decl {x : Xml} {j : Jnt} {d : Decl} (h : readJoint num x = .ok j) (hd : Spec.Urdf.Declares x d) : j.decl = d := by
  obtain ⟨h1, h2, ⟨c, h3, h3'⟩, c', h4, h4'⟩ := hd
  unfold readJoint at h
  rw [h1, h2, h3, h4] at h
  simp only [required, ok_bind, h3', h4'] at h
  obtain ⟨_, -, h⟩ := bind_eq_ok.1 h
  obtain ⟨_, -, h⟩ := bind_eq_ok.1 h
  obtain ⟨_, -, h⟩ := bind_eq_ok.1 h
  obtain ⟨_, -, h⟩ := bind_eq_ok.1 h
  obtain ⟨_, -, h⟩ := bind_eq_ok.1 h
  obtain ⟨_, -, h⟩ := bind_eq_ok.1 h
  obtain ⟨_, -, h⟩ := bind_eq_ok.1 h
  split at h
  · cases h; rfl
  · cases h

/-- C103: a URDF document that is not valid is rejected: building a chain or a serial chain raises, whatever the rest of the
document says and whichever links are asked for. -/
theorem C103_urdf_rejects (num : NumParser) (doc : Xml) (h : ¬ Spec.Urdf.Valid num anyNum doc) (fuel : ℕ) :
    (∃ e, buildChain num fuel doc = .error e) ∧
    ∀ endLink rootLink, ∃ e, buildSerialChain num fuel doc endLink rootLink = .error e := by
  have h' : ¬ Good (buildChain num fuel doc) := not_good_bind fun hg => h (urdfValid_mono ((good_readRobot doc).1 hg))
  exact ⟨good_iff_not_error.1 h', fun a b => good_iff_not_error.1 (not_good_bind h')⟩

/-- C103: a valid URDF document of a tree is accepted, and the chain has the links and joints of the document. -/
theorem C103_urdf_accepts (num : NumParser) (doc : Xml) (h : Spec.Urdf.Valid num finite doc) (links : List Name) (joints : List Decl)
    (root : Name) (ht : Spec.Urdf.TreeDoc doc links joints root) (fuel : ℕ) (hf : links.length ≤ fuel) :
    ∃ f, buildChain num fuel doc = .ok (Chain.init f) ∧ HasShape f links joints root := by
  obtain ⟨r, hr⟩ := (good_readRobot doc).2 h
  obtain ⟨e1, e2⟩ := readRobot_eq hr
  have hl : r.links.map Lnk.name = links := map_eq_of_forall₂ (f := Lnk.name) (S := fun (x : Xml) l => x.attr n!"name" = some l) (fun _ _ _ a b => readLink_name a b) e1 ht.has_links
  have hj : r.joints.map Jnt.decl = joints := map_eq_of_forall₂ (f := Jnt.decl) (S := Spec.Urdf.Declares) (fun _ _ _ a b => readJoint_decl a b) e2 ht.has_joints
  have tree : UrdfTree r root := by
    have := isTree_map Jnt.decl Decl.parent Decl.child links r.joints root (hj ▸ ht.tree)
    rw [← hl] at this
    exact this
  have hty : ∀ j ∈ r.joints, j.type ∈ [n!"revolute", n!"continuous", n!"prismatic", n!"fixed"] := fun j hj' =>
    ht.types j.decl (hj ▸ List.mem_map_of_mem hj')
  have hk : ∀ j ∈ r.joints, urdfKind j.type ≠ none := by
    intro j hj
    have := hty j hj
    simp only [List.mem_cons, List.not_mem_nil, or_false] at this
    rcases this with e | e | e | e <;> rw [e] <;> simp [urdfKind]
  obtain ⟨f, h1, h2⟩ := C22_urdf_tree r root tree (by rintro e; rw [e] at hj; exact ht.some_joint hj.symm) hk fuel
    (by rw [← hl] at hf; simpa using hf)
  refine ⟨f, by rw [buildChain, hr, ok_bind, h1]; rfl, h2.root_name, hl ▸ h2.frames, fun g hg => ?_, fun d hd => ?_⟩
  · rw [h2.children g hg, ← hj, List.filter_map, List.map_map]; rfl
  · rw [← hj] at hd
    obtain ⟨j, hj', rfl⟩ := List.mem_map.1 hd
    obtain ⟨p, hp, g, hg, a, b, c⟩ := h2.joints j hj'
    refine ⟨p, hp, g, hg, a, b, c.name, ?_⟩
    have := hty j hj'
    have hc := c.kind
    simp only [Jnt.decl]
    simp only [List.mem_cons, List.not_mem_nil, or_false] at this
    rcases this with e | e | e | e <;> rw [e] at hc ⊢ <;> simp only [urdfKind, Option.some.injEq] at hc <;> rw [← hc] <;> simp

/-- two links, the first with a visual of this shape, and a revolute joint -/
def exDoc (shape : Xml) : Xml :=
  .elem n!"robot" [] none [
    .elem n!"link" [(n!"name", n!"a")] none [.comment, .elem n!"visual" [] none [.elem n!"geometry" [] none [shape]]],
    .elem n!"link" [(n!"name", n!"b")] none [],
    .elem n!"joint" [(n!"name", n!"j"), (n!"type", n!"revolute")] none [
      .elem n!"parent" [(n!"link", n!"a")] none [], .elem n!"child" [(n!"link", n!"b")] none [],
      .elem n!"origin" [(n!"xyz", n!"0 0 1")] none [],
      .elem n!"limit" [(n!"effort", n!"1"), (n!"velocity", n!"1")] none []]]

/-- a known shape -/
def exSphere : Xml := .elem n!"sphere" [(n!"radius", n!"1")] none []
/-- an unknown shape -/
def exPyramid : Xml := .elem n!"pyramid" [(n!"radius", n!"1")] none []

theorem exDoc_valid : Spec.Urdf.Valid exNum finite (exDoc exSphere) := by
  have n1 : exNum n!"1" = some (.fin 1) := by simp [exNum]
  have n0 : exNum n!"0" = some (.fin 0) := by simp [exNum]
  have v : IsVec exNum finite 3 n!"0 0 1" := by
    have e : pySplit n!"0 0 1" = [n!"0", n!"0", n!"1"] := by decide
    simp only [IsVec, e, List.mem_cons, List.not_mem_nil, or_false]
    exact ⟨rfl, by rintro w (rfl | rfl | rfl) <;> exact ⟨_, by assumption, _, rfl⟩⟩
  have i1 : IsNum exNum n!"1" := ⟨_, n1⟩
  refine ⟨?_, ?_, ?_, ?_⟩ <;>
  simp [exDoc, exSphere, EachChild, OptChild, HasChild, OptAttr, HasAttr, Xml.aggregate, Xml.children, Xml.tag, Xml.attr, Xml.attrs,
    List.lookup, Xml.scalar, Spec.Urdf.Link, Spec.Urdf.Joint, Spec.Urdf.Visual, Spec.Urdf.Geometry, Spec.Urdf.Origin, i1, v]

theorem exDoc_tree (shape : Xml) : Spec.Urdf.TreeDoc (exDoc shape) [n!"a", n!"b"] [⟨n!"j", n!"revolute", n!"a", n!"b"⟩] n!"a" where
  has_links := by simp [exDoc, Xml.aggregate, Xml.children, Xml.tag, Xml.attr, Xml.attrs]
  has_joints := by simp [exDoc, Xml.aggregate, Xml.children, Xml.tag, Xml.attr, Xml.attrs, List.lookup, Spec.Urdf.Declares, HasChild, Xml.scalar]
  some_joint := by simp
  tree := by
    refine ⟨by simp, by simp, by simp, by simp, by simp, by simp, ?_⟩
    simp only [List.mem_cons, List.not_mem_nil, or_false]
    rintro l (rfl | rfl)
    · exact ⟨0, .here⟩
    · exact ⟨1, .step (par := Decl.parent) (chi := Decl.child) 0 ⟨n!"j", n!"revolute", n!"a", n!"b"⟩ (by simp) .here⟩
  types := by simp

/-- with the sphere, the description loads -/
example : ∃ f, buildChain exNum 2 (exDoc exSphere) = .ok (Chain.init f) ∧
    HasShape f [n!"a", n!"b"] [⟨n!"j", n!"revolute", n!"a", n!"b"⟩] n!"a" :=
  C103_urdf_accepts exNum _ exDoc_valid _ _ _ (exDoc_tree _) 2 (by simp)

/-- with an unknown shape in a visual, it does not -/
example (fuel : ℕ) : ∃ e, buildChain exNum fuel (exDoc exPyramid) = .error e := by
  refine (C103_urdf_rejects exNum _ ?_ fuel).1
  intro h
  have := h.links
  simp [exDoc, exPyramid, EachChild, OptChild, HasChild, OptAttr, HasAttr, Xml.aggregate, Xml.children, Xml.tag, Xml.attr, Xml.attrs,
    List.lookup, Xml.scalar, Spec.Urdf.Link, Spec.Urdf.Visual, Spec.Urdf.Geometry] at this

end Urdf

namespace Sdf
variable {num : NumParser} {n : Xml}

theorem good_readPose_sdf : Good (readPose num n) ↔ Spec.Sdf.Pose num finite n := by
  unfold readPose Spec.Sdf.Pose
  rw [good_bind (P := True) fun _ _ => good_pure _, and_true, good_readVec']
  rfl

theorem good_optPose_sdf : Good (optional (n.scalar n!"pose") (readPose num)) ↔ OptChild n n!"pose" (Spec.Sdf.Pose num finite) := by
  rw [good_optional]; simp only [good_readPose_sdf]; rfl

theorem good_readInertial_sdf : Good (readInertial num n) ↔ Spec.Sdf.Inertial num finite n := by
  unfold readInertial Spec.Sdf.Inertial
  rw [good_bind fun _ _ => good_required' (P := fun i => (Spec.Sdf.NumChild num i n!"ixx" ∧ Spec.Sdf.NumChild num i n!"ixy" ∧
    Spec.Sdf.NumChild num i n!"ixz" ∧ Spec.Sdf.NumChild num i n!"iyy" ∧ Spec.Sdf.NumChild num i n!"iyz" ∧
    Spec.Sdf.NumChild num i n!"izz") ∧ OptChild n n!"pose" (Spec.Sdf.Pose num finite)) fun i => ?_, good_floatElem]
  · constructor
    · rintro ⟨h1, g, hg, h2, h3⟩; exact ⟨h1, ⟨g, hg, h2⟩, h3⟩
    · rintro ⟨h1, ⟨g, hg, h2⟩, h3⟩; exact ⟨h1, g, hg, h2, h3⟩
  · rw [good_bind fun _ _ => good_bind fun _ _ => good_pure _, readInertia,
      good_bind fun _ _ => good_bind fun _ _ => good_bind fun _ _ => good_bind fun _ _ => good_bind fun _ _ =>
      good_bind fun _ _ => good_pure _]
    simp only [good_floatElem, and_true, good_optPose_sdf]

theorem good_readGeom_sdf : Good (readGeom num n) ↔ Spec.Sdf.Geometry num finite n := by
  unfold readGeom Spec.Sdf.Geometry
  match h : n.children with
  | [] => simp [good_error]
  | a :: b :: l => simp [good_error]
  | [g] =>
    simp only [List.cons.injEq, and_true, exists_eq_left']
    have d1 : n!"box" ≠ n!"cylinder" := by decide
    have d2 : n!"box" ≠ n!"sphere" := by decide
    have d3 : n!"box" ≠ n!"mesh" := by decide
    have d5 : n!"cylinder" ≠ n!"sphere" := by decide
    have d6 : n!"cylinder" ≠ n!"mesh" := by decide
    have d8 : n!"sphere" ≠ n!"mesh" := by decide
    by_cases h1 : g.tag = n!"box"
    · rw [if_pos h1, good_required' fun _ => good_bind fun _ _ => good_pure _]
      simp only [h1, d1, d2, d3, false_and, or_false, true_and, and_true, good_readV3]
      rfl
    rw [if_neg h1]
    by_cases h2 : g.tag = n!"cylinder"
    · rw [if_pos h2, good_bind fun _ _ => good_bind fun _ _ => good_pure _, good_floatElem, good_floatElem]
      simp only [h2, d1.symm, d5, d6, false_and, or_false, false_or, true_and, and_true]
    rw [if_neg h2]
    by_cases h3 : g.tag = n!"sphere"
    · rw [if_pos h3, good_bind fun _ _ => good_pure _, good_floatElem]
      simp only [h3, d2.symm, d5.symm, d8, false_and, or_false, false_or, true_and, and_true]
    rw [if_neg h3]
    by_cases h4 : g.tag = n!"mesh"
    · rw [if_pos h4, Urdf.good_require fun _ => good_bind fun _ _ => good_pure _, good_optional]
      simp only [h4, d3.symm, d6.symm, d8.symm, false_and, false_or, true_and, and_true, good_readV3,
        HasChild, OptChild, HasText]
    rw [if_neg h4]
    simp [h1, h2, h3, h4, good_error]

theorem good_readVisual_sdf : Good (readVisual num n) ↔ Spec.Sdf.Visual num finite n := by
  unfold readVisual Spec.Sdf.Visual
  rw [good_required' fun _ => good_bind fun _ _ => good_bind fun _ _ => good_pure _]
  simp only [good_readGeom_sdf, good_optPose_sdf, and_true, HasChild, ← exists_and_right, and_assoc]

theorem good_readLink_sdf : Good (readLink num n) ↔ Spec.Sdf.Link num finite n := by
  unfold readLink Spec.Sdf.Link
  rw [good_required' fun _ => good_bind fun _ _ => good_bind fun _ _ => good_bind fun _ _ => good_bind fun _ _ => good_pure _]
  simp only [good_mapM, readCollision, good_readInertial_sdf, good_readVisual_sdf, good_optPose_sdf, and_true, HasChild,
    ← exists_and_right, and_assoc, EachChild]

theorem good_readAxis_sdf : Good (readAxis num n) ↔ HasChild n n!"xyz" (HasText (IsVec num finite 3)) ∧
    OptChild n n!"limit" (fun l => Spec.Sdf.OptNum num l n!"lower" ∧ Spec.Sdf.OptNum num l n!"upper") ∧
    OptChild n n!"dynamics" fun d => Spec.Sdf.OptNum num d n!"damping" ∧ Spec.Sdf.OptNum num d n!"friction" := by
  unfold readAxis
  rw [good_required' fun _ => good_bind fun _ _ => good_bind fun _ _ => good_bind fun _ _ => good_pure _]
  have hl : ∀ l : Xml, Good (readLimit num l) ↔ Spec.Sdf.OptNum num l n!"lower" ∧ Spec.Sdf.OptNum num l n!"upper" := by
    intro l
    rw [readLimit, good_bind fun _ _ => good_bind fun _ _ => good_pure _]
    simp only [good_optional, good_readFloat', and_true]
    rfl
  have hd : ∀ l : Xml, Good (readDynamics num l) ↔
      Spec.Sdf.OptNum num l n!"damping" ∧ Spec.Sdf.OptNum num l n!"friction" := by
    intro l
    rw [readDynamics, good_bind fun _ _ => good_bind fun _ _ => good_pure _]
    simp only [good_optional, good_readFloat', and_true]
    rfl
  simp only [good_readV3, good_optional, hl, hd, HasChild, HasText, OptChild, and_true, ← exists_and_right, and_assoc]

theorem good_readJoint_sdf : Good (readJoint num n) ↔ Spec.Sdf.Joint num finite n := by
  unfold readJoint Spec.Sdf.Joint
  rw [good_required' fun _ => good_bind fun _ _ => Urdf.good_require fun _ => Urdf.good_require fun _ => good_bind fun _ _ =>
    good_pure _]
  simp only [good_readAxis_sdf, good_optPose_sdf, HasChild, and_true, ← exists_and_right, and_assoc]

/-- An SDF document is read without an exception exactly when it has the accepted form. -/
theorem good_readSdf (doc : Xml) : Good (readSdf num doc) ↔ Spec.Sdf.Valid num finite doc := by
  unfold readSdf Spec.Sdf.Valid
  cases h : doc.scalar n!"model" with
  | none => simp [optional, ok_bind, good_error, HasChild, h]
  | some m =>
    simp only [optional, bind_assoc, pure_bind, HasChild, h, Option.some.injEq, exists_eq_left']
    rw [good_bind fun _ _ => good_ok _, and_true, readModel,
      good_bind fun _ _ => good_bind fun _ _ => good_bind fun _ _ => good_pure _]
    simp only [good_mapM, good_readLink_sdf, good_readJoint_sdf, good_optPose_sdf, and_true]
    rfl

theorem readSdf_eq {doc : Xml} {r : Model} (h : readSdf num doc = .ok r) : ∃ m, doc.scalar n!"model" = some m ∧
    List.Forall₂ (fun x l => readLink num x = .ok l) (m.aggregate n!"link") r.links ∧
    List.Forall₂ (fun x j => readJoint num x = .ok j) (m.aggregate n!"joint") r.joints := by
  unfold readSdf at h
  cases hm : doc.scalar n!"model" with
  | none => rw [hm] at h; simp [optional, ok_bind] at h
  | some m =>
    rw [hm] at h
    simp only [optional, bind_assoc, pure_bind] at h
    obtain ⟨mm, h0, h⟩ := bind_eq_ok.1 h
    cases h
    unfold readModel at h0
    obtain ⟨ls, h1, h⟩ := bind_eq_ok.1 h0
    obtain ⟨js, h2, h⟩ := bind_eq_ok.1 h
    obtain ⟨_, -, h⟩ := bind_eq_ok.1 h
    cases h
    exact ⟨m, rfl, (Mjcf.mapM_ok_iff _ _ _).1 h1, (Mjcf.mapM_ok_iff _ _ _).1 h2⟩

theorem readLink_name_sdf {x : Xml} {l : Lnk} (h : readLink num x = .ok l) : l.name = x.attr n!"name" := by
  unfold readLink at h
  obtain ⟨_, -, h⟩ := bind_eq_ok.1 h
  obtain ⟨_, -, h⟩ := bind_eq_ok.1 h
  obtain ⟨_, -, h⟩ := bind_eq_ok.1 h
  obtain ⟨_, -, h⟩ := bind_eq_ok.1 h
  obtain ⟨_, -, h⟩ := bind_eq_ok.1 h
  cases h; rfl

/-- what the record keeps of the declaration -/
def Jnt.decl (j : Jnt) : Decl := ⟨j.name.getD [], j.type.getD [], j.parent, j.child⟩

theorem readJoint_decl_sdf {x : Xml} {j : Jnt} {d : Decl} (h : readJoint num x = .ok j) (hd : Spec.Sdf.Declares x d) :
    j.decl = d ∧ j.name = some d.name ∧ j.type = some d.type := by
  obtain ⟨h1, h2, ⟨c, h3, h3'⟩, c', h4, h4'⟩ := hd
  unfold readJoint at h
  rw [h1, h2, h3, h4] at h
  obtain ⟨_, -, h⟩ := bind_eq_ok.1 h
  obtain ⟨_, -, h⟩ := bind_eq_ok.1 h
  simp only [required, ok_bind, h3', h4'] at h
  obtain ⟨_, -, h⟩ := bind_eq_ok.1 h
  cases h; exact ⟨rfl, rfl, rfl⟩

theorem readJoint_limit {x : Xml} {j : Jnt} {l : Limit} (h : readJoint num x = .ok j) (hl : j.limit = some l)
    (hb : OptChild x n!"axis" fun a => OptChild a n!"limit" fun l => HasChild l n!"lower" anyXml ∧ HasChild l n!"upper" anyXml) :
    l.lower ≠ none ∧ l.upper ≠ none := by
  unfold readJoint at h
  cases ha : x.scalar n!"axis" with
  | none => rw [ha] at h; simp [required, error_bind] at h
  | some a =>
    rw [ha, required, ok_bind] at h
    obtain ⟨ax, hax, h⟩ := bind_eq_ok.1 h
    obtain ⟨_, -, h⟩ := bind_eq_ok.1 h
    obtain ⟨_, -, h⟩ := bind_eq_ok.1 h
    obtain ⟨_, -, h⟩ := bind_eq_ok.1 h
    cases h
    unfold readAxis at hax
    obtain ⟨_, -, hax⟩ := bind_eq_ok.1 hax
    obtain ⟨_, -, hax⟩ := bind_eq_ok.1 hax
    obtain ⟨lo, hlo, hax⟩ := bind_eq_ok.1 hax
    obtain ⟨_, -, hax⟩ := bind_eq_ok.1 hax
    cases hax
    have hl : lo = some l := hl
    subst hl
    cases hs : a.scalar n!"limit" with
    | none => rw [hs] at hlo; simp [optional] at hlo
    | some y =>
      rw [hs] at hlo
      obtain ⟨⟨c, hc, -⟩, c', hc', -⟩ := hb a ha y hs
      simp only [optional] at hlo
      obtain ⟨l', hl', hlo⟩ := bind_eq_ok.1 hlo
      cases hlo
      unfold readLimit at hl'
      rw [hc, hc'] at hl'
      simp only [optional, bind_assoc, pure_bind] at hl'
      obtain ⟨_, -, hl'⟩ := bind_eq_ok.1 hl'
      obtain ⟨_, -, hl'⟩ := bind_eq_ok.1 hl'
      cases hl'
      simp

/-- C103: an SDF document that does not have the accepted form is rejected. -/
theorem C103_sdf_rejects (num : NumParser) (doc : Xml) (h : ¬ Spec.Sdf.Valid num anyNum doc) (fuel : ℕ) :
    (∃ e, buildChain num fuel doc = .error e) ∧
    ∀ endLink rootLink, ∃ e, buildSerialChain num fuel doc endLink rootLink = .error e := by
  have h' : ¬ Good (buildChain num fuel doc) := not_good_bind fun hg => h (sdfValid_mono ((good_readSdf doc).1 hg))
  exact ⟨good_iff_not_error.1 h', fun a b => good_iff_not_error.1 (not_good_bind h')⟩

/-- C103: an SDF document of that form that describes a tree is accepted, and the chain has the links and joints of the
document. -/
theorem C103_sdf_accepts (num : NumParser) (doc : Xml) (h : Spec.Sdf.Valid num finite doc) (links : List Name) (joints : List Decl)
    (root : Name) (ht : Spec.Sdf.TreeDoc doc links joints root) (fuel : ℕ) (hf : links.length ≤ fuel) :
    ∃ f, buildChain num fuel doc = .ok (Chain.init f) ∧ HasShape f links joints root := by
  obtain ⟨r, hr⟩ := (good_readSdf doc).2 h
  obtain ⟨m, hm, e1, e2⟩ := readSdf_eq hr
  obtain ⟨m', hm', f1⟩ := ht.has_links
  rw [hm] at hm'; cases hm'
  obtain ⟨m', hm', f2⟩ := ht.has_joints
  rw [hm] at hm'; cases hm'
  obtain ⟨m', hm', f3⟩ := ht.bounds
  rw [hm] at hm'; cases hm'
  have hl : r.links.map Lnk.name = links.map some :=
    map_eq_of_forall₂ (f := Lnk.name) (S := fun (x : Xml) l => x.attr n!"name" = l) (fun _ _ _ a b => (readLink_name_sdf a).trans b) e1
      (List.forall₂_map_right_iff.2 f1)
  have hj : r.joints.map Jnt.decl = joints := map_eq_of_forall₂ (f := Jnt.decl) (S := Spec.Sdf.Declares) (fun _ _ _ a b => (readJoint_decl_sdf a b).1) e2 f2
  have hjs : ∀ j ∈ r.joints, j.name = some j.decl.name ∧ j.type = some j.decl.type := by
    intro j hj
    obtain ⟨x, hx, ex⟩ := Mjcf.forall₂_mem' e2 hj
    obtain ⟨d, hd, ed⟩ := Mjcf.forall₂_mem f2 hx
    obtain ⟨a, b, c⟩ := readJoint_decl_sdf ex ed
    rw [a]; exact ⟨b, c⟩
  have hty : ∀ j ∈ r.joints, j.decl.type ∈ [n!"revolute", n!"prismatic", n!"fixed"] := fun j hj' =>
    ht.types j.decl (hj ▸ List.mem_map_of_mem hj')
  have tree : SdfTree r links root := by
    refine ⟨hl, isTree_map Jnt.decl Decl.parent Decl.child links r.joints root (hj ▸ ht.tree), ?_, ?_⟩
    · intro j hj
      have := hty j hj
      rw [(hjs j hj).2]
      simp only [List.mem_cons, List.not_mem_nil, or_false] at this
      rcases this with e | e | e <;> rw [e] <;> simp [sdfKind]
    · intro j hj _ l hl
      obtain ⟨x, hx, ex⟩ := Mjcf.forall₂_mem' e2 hj
      exact readJoint_limit ex hl (f3 x hx)
  have hlen : r.links.length = links.length := by simpa using congrArg List.length hl
  obtain ⟨f, h1, h2⟩ := C27_sdf_tree r links root tree (by rintro e; rw [e] at hj; exact ht.some_joint hj.symm) fuel
    (by rw [hlen]; exact hf)
  refine ⟨f, by rw [buildChain, hr, ok_bind, h1]; rfl, h2.root_name, ?_, fun g hg => ?_, fun d hd => ?_⟩
  · have := h2.frames
    rw [hl] at this
    have e : (preorder f).map (fun g => some g.name) = ((preorder f).map Frame.name).map some := by simp
    rw [e] at this
    exact (List.map_perm_map_iff (Option.some_injective _)).1 this
  · rw [h2.children g hg, ← hj, List.filter_map, List.map_map]; rfl
  · rw [← hj] at hd
    obtain ⟨j, hj', rfl⟩ := List.mem_map.1 hd
    obtain ⟨p, hp, g, hg, a, b, c⟩ := h2.joints j hj'
    have hn : ∀ n ∈ links, ∃ l ∈ r.links, l.name = some n := by
      intro n hn
      have : some n ∈ r.links.map Lnk.name := hl ▸ List.mem_map_of_mem hn
      obtain ⟨l, h1, h2⟩ := List.mem_map.1 this
      exact ⟨l, h1, h2⟩
    obtain ⟨lp, hlp, elp⟩ := hn _ (tree.tree.parent_mem j hj')
    obtain ⟨lc, hlc, elc⟩ := hn _ (tree.tree.child_mem j hj')
    have c := c lp hlp lc hlc elp elc
    refine ⟨p, hp, g, hg, a, b, c.name.trans (hjs j hj').1, ?_⟩
    have := hty j hj'
    have hc := c.kind
    rw [(hjs j hj').2] at hc
    simp only [List.mem_cons, List.not_mem_nil, or_false] at this
    rcases this with e | e | e <;> rw [e] at hc ⊢ <;> simp only [sdfKind, Option.some.injEq] at hc <;> rw [← hc] <;> simp

/-- an element with a text -/
private def el (t s : Name) : Xml := .elem t [] (some s) []

/-- the inertial every link needs -/
def exLinkInertial : Xml := .elem n!"inertial" [] none [el n!"mass" n!"1", .elem n!"inertia" [] none [el n!"ixx" n!"1", el n!"ixy" n!"0",
  el n!"ixz" n!"0", el n!"iyy" n!"1", el n!"iyz" n!"0", el n!"izz" n!"1"]]

/-- two links and a prismatic joint about this axis -/
def exSlider (axis : Name) : Xml :=
  .elem n!"sdf" [] none [.elem n!"model" [] none [
    .elem n!"link" [(n!"name", n!"a")] none [exLinkInertial],
    .elem n!"link" [(n!"name", n!"b")] none [el n!"pose" n!"0 0 1 0 0 0", exLinkInertial],
    .elem n!"joint" [(n!"name", n!"j"), (n!"type", n!"prismatic")] none [
      el n!"parent" n!"a", el n!"child" n!"b", .elem n!"axis" [] none [el n!"xyz" axis]]]]

theorem exSlider_valid : Spec.Sdf.Valid exNum finite (exSlider n!"0 0 1") := by
  have n1 : exNum n!"1" = some (.fin 1) := by simp [exNum]
  have n0 : exNum n!"0" = some (.fin 0) := by simp [exNum]
  have v : IsVec exNum finite 3 n!"0 0 1" := by
    have e : pySplit n!"0 0 1" = [n!"0", n!"0", n!"1"] := by decide
    simp only [IsVec, e, List.mem_cons, List.not_mem_nil, or_false]
    exact ⟨rfl, by rintro w (rfl | rfl | rfl) <;> exact ⟨_, by assumption, _, rfl⟩⟩
  have v6 : IsVec exNum finite 6 n!"0 0 1 0 0 0" := by
    have e : pySplit n!"0 0 1 0 0 0" = [n!"0", n!"0", n!"1", n!"0", n!"0", n!"0"] := by decide
    simp only [IsVec, e, List.mem_cons, List.not_mem_nil, or_false]
    exact ⟨rfl, by rintro w (rfl | rfl | rfl | rfl | rfl | rfl) <;> exact ⟨_, by assumption, _, rfl⟩⟩
  have i1 : IsNum exNum n!"1" := ⟨_, n1⟩
  have i0 : IsNum exNum n!"0" := ⟨_, n0⟩
  simp [exSlider, exLinkInertial, el, EachChild, OptChild, HasChild, HasText, Xml.aggregate, Xml.children, Xml.tag, Xml.text,
    Xml.scalar, Spec.Sdf.Valid, Spec.Sdf.Link, Spec.Sdf.Joint, Spec.Sdf.Inertial, Spec.Sdf.Pose, i1, i0, v, v6]

theorem exSlider_tree (axis : Name) : Spec.Sdf.TreeDoc (exSlider axis) [n!"a", n!"b"] [⟨n!"j", n!"prismatic", n!"a", n!"b"⟩] n!"a" where
  has_links := by simp [exSlider, exLinkInertial, el, Xml.aggregate, Xml.children, Xml.tag, Xml.attr, Xml.attrs, HasChild, Xml.scalar]
  has_joints := by simp [exSlider, exLinkInertial, el, Xml.aggregate, Xml.children, Xml.tag, Xml.attr, Xml.attrs, List.lookup, Xml.text, Spec.Sdf.Declares,
    HasChild, Xml.scalar]
  some_joint := by simp
  tree := by
    refine ⟨by simp, by simp, by simp, by simp, by simp, by simp, ?_⟩
    simp only [List.mem_cons, List.not_mem_nil, or_false]
    rintro l (rfl | rfl)
    · exact ⟨0, .here⟩
    · exact ⟨1, .step (par := Decl.parent) (chi := Decl.child) 0 ⟨n!"j", n!"prismatic", n!"a", n!"b"⟩ (by simp) .here⟩
  types := by simp
  bounds := by simp [exSlider, exLinkInertial, el, EachChild, OptChild, Xml.aggregate, Xml.children, Xml.tag, HasChild, Xml.scalar]

example : ∃ f, buildChain exNum 2 (exSlider n!"0 0 1") = .ok (Chain.init f) ∧
    HasShape f [n!"a", n!"b"] [⟨n!"j", n!"prismatic", n!"a", n!"b"⟩] n!"a" :=
  C103_sdf_accepts _ _ exSlider_valid _ _ _ (exSlider_tree _) 2 (by simp)

/-- an axis with two coordinates -/
example (fuel : ℕ) : ∃ e, buildChain exNum fuel (exSlider n!"0 1") = .error e := by
  refine (C103_sdf_rejects _ _ ?_ fuel).1
  rintro ⟨m, hm, -, h, -⟩
  have e : pySplit n!"0 1" = [n!"0", n!"1"] := by decide
  simp [exSlider, exLinkInertial, el, Xml.children, Xml.tag, Xml.scalar] at hm
  subst hm
  simp [el, EachChild, HasChild, HasText, Xml.aggregate, Xml.children, Xml.tag, Xml.text, Xml.scalar, Spec.Sdf.Joint, IsVec, e] at h

end Sdf
end PK
