import Verif.Lemmas.Exc
import Verif.Spec.Format
import Verif.Props.Urdf2
import Verif.Props.Sdf

/-!
# C76: formatting of a description does not matter
-/

namespace PK
open Spec

theorem lookup_perm {as bs : List (Name × Name)} (h : as.Perm bs) (hn : (as.map Prod.fst).Nodup) (k : Name) :
    as.lookup k = bs.lookup k := by
  induction h with
  | nil => rfl
  | cons x _ ih =>
    obtain ⟨a, b⟩ := x
    simp only [List.map_cons, List.nodup_cons] at hn
    simp only [List.lookup_cons, ih hn.2]
  | swap x y l =>
    obtain ⟨a, b⟩ := x
    obtain ⟨a', b'⟩ := y
    simp only [List.map_cons, List.nodup_cons, List.mem_cons, not_or] at hn
    simp only [List.lookup_cons]
    cases h1 : k == a <;> cases h2 : k == a'
    case true.true => exact absurd ((eq_of_beq h2).symm.trans (eq_of_beq h1)) hn.1.1
    all_goals rfl
  | trans h1 _ ih1 ih2 => rw [ih1 hn, ih2 ((h1.map _).nodup_iff.1 hn)]

namespace Spec
variable {C : Name → Prop}

theorem Same.tag {a b : Xml} (h : Same C a b) : a.tag = b.tag := by cases h; rfl
theorem Same.text {a b : Xml} (h : Same C a b) (hc : ¬ C a.tag) : a.text = b.text := by
  cases h with | elem t as bs x y cs ds h1 h2 h3 h4 => exact h3.resolve_left hc
theorem Same.attr {a b : Xml} (h : Same C a b) (k : Name) : a.attr k = b.attr k := by
  cases h with | elem t as bs x y cs ds h1 h2 h3 h4 => exact lookup_perm h1 h2 k

theorem SameL.aggregate {cs ds : List Xml} (h : SameL C cs ds) (t : Name) :
    List.Forall₂ (fun a b => Same C a b ∧ a.tag = t)
      ((cs.filter fun | .comment => false | .elem .. => true).filter fun c => c.tag == t)
      ((ds.filter fun | .comment => false | .elem .. => true).filter fun c => c.tag == t) := by
  induction h using SameL.rec (motive_1 := fun _ _ _ => True) with
  | elem => trivial
  | nil => exact .nil
  | left cs ds _ ih => simpa using ih
  | right cs ds _ ih => simpa using ih
  | cons c d cs ds h _ _ ih =>
    have ht := h.tag
    have hs := h
    cases h with | elem t' as bs x y cs' ds' h1 h2 h3 h4 =>
    simp only [List.filter_cons, if_true] at ih ⊢
    rw [← ht]
    split
    · next he => exact .cons ⟨hs, by simpa using he⟩ ih
    · exact ih
  | swap cs l r c d _ hn ih =>
    refine cast (congrArg _ ?_) ih
    by_cases hc : c.tag = t <;> by_cases hd : d.tag = t
    · exact absurd (hc.trans hd.symm) hn
    all_goals
      have h1 : (c.tag == t) = decide (c.tag = t) := beq_eq_decide ..
      have h2 : (d.tag == t) = decide (d.tag = t) := beq_eq_decide ..
      simp only [List.filter_filter]
      simp only [List.filter_append, List.filter_cons, h1, h2, hc, hd, decide_false,
        Bool.false_and, Bool.false_eq_true, if_false]

theorem SameL.length {cs ds : List Xml} (h : SameL C cs ds) :
    (cs.filter fun | .comment => false | .elem .. => true).length =
    (ds.filter fun | .comment => false | .elem .. => true).length := by
  induction h using SameL.rec (motive_1 := fun _ _ _ => True) with
  | elem => trivial
  | nil => rfl
  | left cs ds _ ih => simpa using ih
  | right cs ds _ ih => simpa using ih
  | cons c d cs ds h _ _ ih => cases h; simpa using ih
  | swap cs l r c d _ hn ih =>
    rw [ih]
    simp only [List.filter_append, List.length_append]
    cases c <;> cases d <;> simp

theorem Same.aggregate {a b : Xml} (h : Same C a b) (t : Name) :
    List.Forall₂ (fun a b => Same C a b ∧ a.tag = t) (a.aggregate t) (b.aggregate t) := by
  cases h with | elem t' as bs x y cs ds h1 h2 h3 h4 => exact h4.aggregate t

/-- an element with a single child element -/
theorem Same.only_child {a b : Xml} (h : Same C a b) :
    (∃ c d, a.children = [c] ∧ b.children = [d] ∧ Same C c d) ∨ (a.children.length ≠ 1 ∧ b.children.length ≠ 1) := by
  have hl : a.children.length = b.children.length := by
    cases h with | elem t' as bs x y cs ds h1 h2 h3 h4 => exact h4.length
  by_cases h1 : a.children.length = 1
  · obtain ⟨c, hc⟩ := List.length_eq_one_iff.1 h1
    obtain ⟨d, hd⟩ := List.length_eq_one_iff.1 (hl ▸ h1)
    have := h.aggregate c.tag
    simp only [Xml.aggregate, hc, hd, List.filter_cons, List.filter_nil, beq_self_eq_true, if_true] at this
    split at this
    · cases this with | cons h' _ => exact Or.inl ⟨c, d, hc, hd, h'.1⟩
    · cases this
  · exact Or.inr ⟨h1, hl ▸ h1⟩

theorem Same.scalar {a b : Xml} (h : Same C a b) (t : Name) :
    (a.scalar t = none ∧ b.scalar t = none) ∨ ∃ c d, a.scalar t = some c ∧ b.scalar t = some d ∧ Same C c d ∧ c.tag = t := by
  have := h.aggregate t
  unfold Xml.scalar
  rw [← List.head?_filter, ← List.head?_filter]
  unfold Xml.aggregate at this
  generalize List.filter (fun c => c.tag == t) a.children = as at this
  generalize List.filter (fun c => c.tag == t) b.children = bs at this
  cases this with
  | nil => exact Or.inl ⟨rfl, rfl⟩
  | cons h1 _ => exact Or.inr ⟨_, _, rfl, rfl, h1.1, h1.2⟩

theorem Same.optional {a b : Xml} (h : Same C a b) (t : Name) {β : Type} {f : Xml → Except Err β}
    (hf : ∀ c d, Same C c d → c.tag = t → f c = f d) : PK.optional (a.scalar t) f = PK.optional (b.scalar t) f := by
  rcases h.scalar t with ⟨h1, h2⟩ | ⟨c, d, h1, h2, h3, h4⟩
  · rw [h1, h2]
  · rw [h1, h2]; simp only [PK.optional, hf c d h3 h4]

theorem Same.required {a b : Xml} (h : Same C a b) (t : Name) {β : Type} {f g : Xml → Except Err β}
    (hf : ∀ c d, Same C c d → c.tag = t → f c = g d) :
    (PK.required (a.scalar t) >>= f) = (PK.required (b.scalar t) >>= g) := by
  rcases h.scalar t with ⟨h1, h2⟩ | ⟨c, d, h1, h2, h3, h4⟩
  · rw [h1, h2]; rfl
  · rw [h1, h2]; exact hf c d h3 h4

theorem Same.mapM {a b : Xml} (h : Same C a b) (t : Name) {β : Type} {f : Xml → Except Err β}
    (hf : ∀ c d, Same C c d → c.tag = t → f c = f d) : (a.aggregate t).mapM f = (b.aggregate t).mapM f := by
  have := h.aggregate t
  generalize a.aggregate t = as at this ⊢
  generalize b.aggregate t = bs at this ⊢
  induction this with
  | nil => rfl
  | cons h1 _ ih => simp only [List.mapM_cons, ih, hf _ _ h1.1 h1.2]

theorem Same.forM {a b : Xml} (h : Same C a b) (t : Name) {f : Xml → Except Err Unit}
    (hf : ∀ c d, Same C c d → c.tag = t → f c = f d) : (a.aggregate t).forM f = (b.aggregate t).forM f := by
  have := h.aggregate t
  generalize a.aggregate t = as at this ⊢
  generalize b.aggregate t = bs at this ⊢
  induction this with
  | nil => rfl
  | cons h1 _ ih => simp only [List.forM] at ih ⊢; rw [ih, hf _ _ h1.1 h1.2]

theorem Same.isEmpty {a b : Xml} (h : Same C a b) (t : Name) : (a.aggregate t).isEmpty = (b.aggregate t).isEmpty := by
  have := h.aggregate t
  generalize a.aggregate t = as at this
  generalize b.aggregate t = bs at this
  cases this with
  | nil => rfl
  | cons => rfl

theorem Same.floatAttr {a b : Xml} (h : Same C a b) (num : NumParser) (k : Name) : floatAttr num a k = floatAttr num b k := by
  simp only [PK.floatAttr, h.attr]

theorem Same.floatElem {a b : Xml} (h : Same C a b) (num : NumParser) (k : Name) (hk : ¬ C k) :
    floatElem num a k = floatElem num b k := by
  unfold PK.floatElem
  exact h.required k fun c d h' ht => by rw [h'.text (by rwa [ht])]

end Spec

namespace Urdf
variable {C : Name → Prop} {a b : Xml}

theorem readPose_same (num : NumParser) (h : Same C a b) : readPose num a = readPose num b := by
  simp only [readPose, h.attr]
theorem readLimit_same (num : NumParser) (h : Same C a b) : readLimit num a = readLimit num b := by
  simp only [readLimit, h.attr, h.floatAttr]
theorem readMimic_same (num : NumParser) (h : Same C a b) : readMimic num a = readMimic num b := by
  simp only [readMimic, h.attr]
theorem readDynamics_same (num : NumParser) (h : Same C a b) : readDynamics num a = readDynamics num b := by
  simp only [readDynamics, optFloat, h.attr]
theorem readSafety_same (num : NumParser) (h : Same C a b) : readSafety num a = readSafety num b := by
  simp only [readSafety, optFloat, h.attr, h.floatAttr]
theorem readCalibration_same (num : NumParser) (h : Same C a b) : readCalibration num a = readCalibration num b := by
  simp only [readCalibration, optFloat, h.attr]

theorem readJoint_same (num : NumParser) (h : Same C a b) : readJoint num a = readJoint num b := by
  unfold readJoint
  rw [h.attr, h.attr, h.optional _ fun c d h _ => readPose_same num h,
    h.optional n!"axis" (f := fun a => readV3 num (a.attr n!"xyz")) fun c d h _ => by rw [h.attr],
    h.optional _ fun c d h _ => readLimit_same num h, h.optional _ fun c d h _ => readDynamics_same num h,
    h.optional _ fun c d h _ => readSafety_same num h,
    h.optional _ fun c d h _ => readCalibration_same num h,
    h.optional _ fun c d h _ => readMimic_same num h]
  congr 1; funext name
  congr 1; funext type
  congr 1; funext origin
  congr 1; funext axis
  refine h.required _ fun c d h1 _ => h.required _ fun c' d' h2 _ => ?_
  rw [h1.attr, h2.attr]

theorem readGeom_same (num : NumParser) (h : Same C a b) : readGeom num a = readGeom num b := by
  unfold readGeom
  rcases h.only_child with ⟨c, d, hc, hd, h1⟩ | ⟨hc, hd⟩
  · rw [hc, hd]
    simp only [h1.tag, h1.attr, h1.floatAttr]
  · generalize a.children = as at hc
    generalize b.children = bs at hd
    rcases as with _ | ⟨_, _ | ⟨_, _⟩⟩ <;> rcases bs with _ | ⟨_, _ | ⟨_, _⟩⟩ <;> first | rfl | exact absurd rfl hc | exact absurd rfl hd

theorem readMaterial_same (num : NumParser) (h : Same C a b) : readMaterial num a = readMaterial num b := by
  unfold readMaterial
  rw [h.attr, h.optional n!"color" (fun c d h _ => ?_), h.optional n!"texture" (fun c d h _ => ?_)]
  · rw [h.attr]
  · rw [h.attr]

theorem readVisual_same (num : NumParser) (h : Same C a b) : readVisual num a = readVisual num b := by
  unfold readVisual
  rw [h.optional _ fun c d h _ => readPose_same num h, h.optional _ fun c d h _ => readMaterial_same num h]
  congr 1; funext origin
  refine h.required _ fun c d h1 _ => ?_
  rw [readGeom_same num h1]

theorem readCollision_same (num : NumParser) (h : Same C a b) : readCollision num a = readCollision num b := by
  unfold readCollision
  rw [h.optional _ fun c d h _ => readPose_same num h]
  congr 1; funext origin
  refine h.required _ fun c d h1 _ => ?_
  rw [readGeom_same num h1]

theorem readInertial_same (num : NumParser) (h : Same C a b) : readInertial num a = readInertial num b := by
  unfold readInertial
  rw [h.optional n!"origin" fun c d h _ => readPose_same num h, h.optional n!"inertia" fun c d h _ => by simp only [readInertia, h.floatAttr]]
  congr 1; funext origin
  refine h.required _ fun c d h1 _ => ?_
  rw [h1.attr]

theorem readLink_same (num : NumParser) (h : Same C a b) : readLink num a = readLink num b := by
  unfold readLink
  rw [h.attr, h.optional _ fun c d h _ => readPose_same num h, h.mapM _ fun c d h _ => readVisual_same num h,
    h.mapM _ fun c d h _ => readCollision_same num h, h.optional _ fun c d h _ => readInertial_same num h]

theorem checkTransmission_same (num : NumParser) (hC : ¬ C n!"mechanicalReduction") (h : Same C a b) :
    checkTransmission num a = checkTransmission num b := by
  have h1 : checkTransmissionNew num a = checkTransmissionNew num b := by
    unfold checkTransmissionNew
    rw [h.attr]
    congr 1; funext name
    refine h.required _ fun c d _ _ => ?_
    simp only
    rw [h.forM n!"joint" fun c d h _ => by simp only [h.attr, h.isEmpty], h.forM n!"actuator" (fun c d h _ => ?_),
      h.isEmpty, h.isEmpty]
    · rw [h.attr]
      congr 1; funext _
      rw [h.optional n!"mechanicalReduction" fun c d h ht => by rw [h.text (by rwa [ht])]]
  have h2 : checkTransmissionPR2 num a = checkTransmissionPR2 num b := by
    unfold checkTransmissionPR2
    rw [h.attr, h.attr, h.floatElem num _ hC]
    congr 1; funext name
    congr 1; funext type
    refine h.required _ fun c d _ _ => h.required _ fun c' d' _ _ => rfl
  simp only [checkTransmission, h1, h2]

theorem readRobot_same (num : NumParser) (hC : ¬ C n!"mechanicalReduction") (h : Same C a b) :
    readRobot num a = readRobot num b := by
  unfold readRobot
  rw [h.mapM _ fun c d h _ => readLink_same num h, h.mapM _ fun c d h _ => readJoint_same num h,
    h.mapM _ fun c d h _ => checkTransmission_same num hC h, h.mapM _ fun c d h _ => readMaterial_same num h]

end Urdf

/-- C76, URDF: two documents that differ only in comments, order of attributes, order of elements with different tags and
indentation load the same way: both to the same chain, or both to the same error. -/
theorem C76_urdf_format (num : NumParser) (fuel : ℕ) (a b : Xml) (h : Same urdfContainer a b) :
    Urdf.buildChain num fuel a = Urdf.buildChain num fuel b ∧
    ∀ endLink rootLink, Urdf.buildSerialChain num fuel a endLink rootLink = Urdf.buildSerialChain num fuel b endLink rootLink := by
  have : Urdf.buildChain num fuel a = Urdf.buildChain num fuel b := by
    simp only [Urdf.buildChain, Urdf.readRobot_same num (by simp [urdfContainer]) h]
  exact ⟨this, fun e r => by simp only [Urdf.buildSerialChain, this]⟩

theorem Spec.Same.refl_leaf (C : Name → Prop) (t : Name) (as : List (Name × Name)) (x : Option Name)
    (h : (as.map Prod.fst).Nodup) : Same C (.elem t as x []) (.elem t as x []) :=
  .elem t as as x x [] [] (.refl _) h (Or.inr rfl) .nil

/-- the example document with a comment, indentation, the attributes of `<limit>` and `<joint>` exchanged, the joint
before the second link and the child before the parent -/
def exContinuous' (e v : Name) : Xml :=
  .elem n!"robot" [(n!"name", n!"r")] (some n!"  ")
    [.comment, .elem n!"link" [(n!"name", n!"a")] none [], .comment,
     .elem n!"joint" [(n!"type", n!"continuous"), (n!"name", n!"j")] (some n!"  ")
       [.elem n!"child" [(n!"link", n!"b")] none [], .elem n!"parent" [(n!"link", n!"a")] none [],
        .elem n!"limit" [(n!"velocity", v), (n!"effort", e)] none [.comment]],
     .elem n!"link" [(n!"name", n!"b")] none []]

example (num : NumParser) (fuel : ℕ) (e v : Name) :
    Urdf.buildChain num fuel (exContinuous e v) = Urdf.buildChain num fuel (exContinuous' e v) := by
  refine (C76_urdf_format num fuel _ _ (.elem _ _ _ _ _ _ _ (.refl _) (by simp) (Or.inl (by simp [urdfContainer])) ?_)).1
  refine .right _ _ (.swap _ [_, _] [] _ _ ?_ (by simp [Xml.tag]))
  refine .cons _ _ _ _ (.refl_leaf _ _ _ _ (by simp)) (.right _ _ (.cons _ _ _ _ (.refl_leaf _ _ _ _ (by simp))
    (.cons _ _ _ _ (.elem _ _ _ _ _ _ _ (.swap ..) (by simp) (Or.inl (by simp [urdfContainer])) ?_) .nil)))
  refine .swap _ [] [_] _ _ ?_ (by simp [Xml.tag])
  exact .cons _ _ _ _ (.refl_leaf _ _ _ _ (by simp)) (.cons _ _ _ _ (.refl_leaf _ _ _ _ (by simp))
    (.cons _ _ _ _ (.elem _ _ _ _ _ _ _ (.swap ..) (by simp) (Or.inr rfl) (.right _ _ .nil)) .nil))

namespace Sdf
variable {a b : Xml}
local notation "S" => Same sdfContainer

theorem readPose_same (num : NumParser) (h : S a b) (ht : a.tag = n!"pose") : readPose num a = readPose num b := by
  simp only [readPose, h.text (by rw [ht]; simp [sdfContainer])]

theorem optPose_same (num : NumParser) (h : S a b) :
    PK.optional (a.scalar n!"pose") (readPose num) = PK.optional (b.scalar n!"pose") (readPose num) :=
  h.optional _ fun _ _ h ht => readPose_same num h ht

theorem readInertia_same (num : NumParser) (h : S a b) : readInertia num a = readInertia num b := by
  unfold readInertia
  rw [h.floatElem num n!"ixx" (by simp [sdfContainer]), h.floatElem num n!"ixy" (by simp [sdfContainer]),
    h.floatElem num n!"ixz" (by simp [sdfContainer]), h.floatElem num n!"iyy" (by simp [sdfContainer]),
    h.floatElem num n!"iyz" (by simp [sdfContainer]), h.floatElem num n!"izz" (by simp [sdfContainer])]

theorem readInertial_same (num : NumParser) (h : S a b) : readInertial num a = readInertial num b := by
  unfold readInertial
  rw [h.floatElem num _ (by simp [sdfContainer]), optPose_same num h]
  congr 1; funext _
  refine h.required _ fun c d h1 _ => ?_
  rw [readInertia_same num h1]

theorem readGeom_same (num : NumParser) (h : S a b) : readGeom num a = readGeom num b := by
  unfold readGeom
  rcases h.only_child with ⟨c, d, hc, hd, h1⟩ | ⟨hc, hd⟩
  · rw [hc, hd]
    simp only [h1.tag]
    rw [h1.required n!"size" (fun c d h ht => by rw [h.text (by rw [ht]; simp [sdfContainer])]),
      h1.floatElem num n!"radius" (by simp [sdfContainer]), h1.floatElem num n!"length" (by simp [sdfContainer]),
      h1.optional n!"scale" (fun c d h ht => by rw [h.text (by rw [ht]; simp [sdfContainer])]),
      h1.required n!"filename" (fun c d h ht => by rw [h.text (by rw [ht]; simp [sdfContainer])])]
  · generalize a.children = as at hc
    generalize b.children = bs at hd
    rcases as with _ | ⟨_, _ | ⟨_, _⟩⟩ <;> rcases bs with _ | ⟨_, _ | ⟨_, _⟩⟩ <;> first | rfl | exact absurd rfl hc | exact absurd rfl hd

theorem readVisual_same (num : NumParser) (h : S a b) : readVisual num a = readVisual num b := by
  unfold readVisual
  rw [optPose_same num h]
  refine h.required _ fun c d h1 _ => ?_
  rw [readGeom_same num h1]

theorem readLink_same (num : NumParser) (h : S a b) : readLink num a = readLink num b := by
  unfold readLink
  rw [optPose_same num h, h.attr, h.mapM _ fun c d h _ => readVisual_same num h,
    h.mapM n!"collision" (f := readCollision num) fun c d h _ => by simp only [readCollision, readVisual_same num h]]
  refine h.required _ fun c d h1 _ => ?_
  rw [readInertial_same num h1]

theorem readLimit_same (num : NumParser) (h : S a b) : readLimit num a = readLimit num b := by
  unfold readLimit
  rw [h.optional n!"lower" (fun c d h ht => by rw [h.text (by rw [ht]; simp [sdfContainer])]),
    h.optional n!"upper" (fun c d h ht => by rw [h.text (by rw [ht]; simp [sdfContainer])])]

theorem readDynamics_same (num : NumParser) (h : S a b) : readDynamics num a = readDynamics num b := by
  unfold readDynamics
  rw [h.optional n!"damping" (fun c d h ht => by rw [h.text (by rw [ht]; simp [sdfContainer])]),
    h.optional n!"friction" (fun c d h ht => by rw [h.text (by rw [ht]; simp [sdfContainer])])]

theorem readAxis_same (num : NumParser) (h : S a b) : readAxis num a = readAxis num b := by
  unfold readAxis
  rw [h.optional _ fun c d h _ => readLimit_same num h, h.optional _ fun c d h _ => readDynamics_same num h]
  exact h.required _ fun c d h ht => by rw [h.text (by rw [ht]; simp [sdfContainer])]

theorem readJoint_same (num : NumParser) (h : S a b) : readJoint num a = readJoint num b := by
  unfold readJoint
  rw [optPose_same num h, h.attr, h.attr]
  refine h.required _ fun c d h1 _ => ?_
  rw [readAxis_same num h1]
  congr 1; funext ax
  refine h.required _ fun c d h1 t1 => h.required _ fun c' d' h2 t2 => ?_
  rw [h1.text (by rw [t1]; simp [sdfContainer]), h2.text (by rw [t2]; simp [sdfContainer])]

theorem readSdf_same (num : NumParser) (h : S a b) : readSdf num a = readSdf num b := by
  unfold readSdf
  rw [h.optional n!"model" fun c d h _ => ?_]
  unfold readModel
  rw [h.mapM _ fun c d h _ => readLink_same num h, h.mapM _ fun c d h _ => readJoint_same num h, optPose_same num h]

end Sdf

/-- C76, SDF: the same; the text of the elements that hold text (`pose`, `parent`, `xyz`, …) is not formatting. -/
theorem C76_sdf_format (num : NumParser) (fuel : ℕ) (a b : Xml) (h : Same sdfContainer a b) :
    Sdf.buildChain num fuel a = Sdf.buildChain num fuel b ∧
    ∀ endLink rootLink, Sdf.buildSerialChain num fuel a endLink rootLink = Sdf.buildSerialChain num fuel b endLink rootLink := by
  have : Sdf.buildChain num fuel a = Sdf.buildChain num fuel b := by
    simp only [Sdf.buildChain, Sdf.readSdf_same num h]
  exact ⟨this, fun e r => by simp only [Sdf.buildSerialChain, this]⟩

/-- a joint, with and without formatting -/
example (num : NumParser) (fuel : ℕ) :
    Sdf.buildChain num fuel (.elem n!"sdf" [] none [.elem n!"model" [(n!"name", n!"m"), (n!"x", n!"y")] none
      [.elem n!"joint" [] none [textElem n!"parent" n!"p"]]]) =
    Sdf.buildChain num fuel (.elem n!"sdf" [] none [.comment, .elem n!"model" [(n!"x", n!"y"), (n!"name", n!"m")] (some n!" ")
      [.elem n!"joint" [] (some n!" ") [textElem n!"parent" n!"p", .comment]]]) := by
  refine (C76_sdf_format num fuel _ _ (.elem _ _ _ _ _ _ _ (.refl _) (by simp) (Or.inr rfl) ?_)).1
  refine .right _ _ (.cons _ _ _ _ (.elem _ _ _ _ _ _ _ (.swap ..) (by simp) (Or.inl (by simp [sdfContainer])) ?_) .nil)
  refine .cons _ _ _ _ (.elem _ _ _ _ _ _ _ (.refl _) (by simp) (Or.inl (by simp [sdfContainer])) ?_) .nil
  exact .cons _ _ _ _ (.refl_leaf _ _ _ _ (by simp)) (.right _ _ .nil)

end PK
