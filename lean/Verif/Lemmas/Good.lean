import Verif.Lemmas.Exc
import Verif.Spec.Valid

/-!
# Which documents can be read
-/

namespace PK
open Spec

/-- the computation does not raise -/
def Good {α : Type} (x : Except Err α) : Prop := ∃ a, x = .ok a

variable {α β : Type}

theorem good_ok (a : α) : Good (.ok a : Except Err α) ↔ True := iff_true_intro ⟨a, rfl⟩
theorem good_pure (a : α) : Good (pure a : Except Err α) ↔ True := iff_true_intro ⟨a, rfl⟩
theorem good_error (e : Err) : Good (.error e : Except Err α) ↔ False := iff_false_intro fun ⟨_, h⟩ => by cases h

theorem good_bind {x : Except Err α} {f : α → Except Err β} {P : Prop} (h : ∀ a, x = .ok a → (Good (f a) ↔ P)) :
    Good (x >>= f) ↔ Good x ∧ P := by
  cases x with
  | error e => simp [error_bind, good_error]
  | ok a => rw [ok_bind, h a rfl, good_ok, true_and]

theorem good_required {o : Option α} {f : α → Except Err β} :
    Good (required o >>= f) ↔ ∃ a, o = some a ∧ Good (f a) := by
  cases o with
  | none => simp [required, error_bind, good_error]
  | some a => simp [required, ok_bind]

theorem good_required' {o : Option α} {f : α → Except Err β} {P : α → Prop} (h : ∀ a, Good (f a) ↔ P a) :
    Good (required o >>= f) ↔ ∃ a, o = some a ∧ P a := by
  rw [good_required]; simp only [h]

theorem good_optional {o : Option α} {f : α → Except Err β} : Good (optional o f) ↔ ∀ a, o = some a → Good (f a) := by
  cases o with
  | none => simp [optional, good_ok]
  | some a =>
    simp only [optional, Option.some.injEq, forall_eq']
    rw [good_bind (P := True) fun _ _ => good_pure _, and_true]

theorem good_mapM {l : List α} {f : α → Except Err β} : Good (l.mapM f) ↔ ∀ a ∈ l, Good (f a) := by
  induction l with
  | nil => simp [good_pure]
  | cons a l ih =>
    rw [List.mapM_cons, good_bind (P := ∀ a ∈ l, Good (f a)) fun b _ => ?_]
    · simp
    · rw [good_bind (P := True) fun _ _ => good_pure _, and_true, ih]

theorem good_forM {l : List α} {f : α → Except Err Unit} : Good (l.forM f) ↔ ∀ a ∈ l, Good (f a) := by
  induction l with
  | nil => simp [List.forM, good_pure]
  | cons a l ih =>
    simp only [List.forM] at ih ⊢
    rw [good_bind (P := ∀ a ∈ l, Good (f a)) fun b _ => ?_]
    · simp
    · exact ih

theorem good_readFloat {num : NumParser} {s : Name} : Good (readFloat num (some s)) ↔ IsNum num s := by
  simp only [readFloat, IsNum]
  cases num s with
  | none => simp [good_error]
  | some x => simp [good_ok]

theorem good_readFloat' {num : NumParser} {o : Option Name} : Good (readFloat num o) ↔ ∃ s, o = some s ∧ IsNum num s := by
  cases o with
  | none => simp [readFloat, good_error]
  | some s => simp [good_readFloat]

theorem good_readReal {num : NumParser} {s : Name} : Good (readReal num s) ↔ ∃ x : ℝ, num s = some (.fin x) := by
  simp only [readReal]
  split
  · next h => simp [h, good_error]
  · next x h => simp [h, good_ok]
  · next y hy h => simp only [h, good_error, Option.some.injEq, false_iff, not_exists]; exact fun x hx => hy x hx

theorem good_readVec {num : NumParser} {k : ℕ} {s : Name} : Good (readVec num k (some s)) ↔ IsVec num finite k s := by
  simp only [readVec, IsVec]
  split
  · next h =>
    rw [good_mapM]
    simp only [h, good_readReal, true_and]
    exact forall₂_congr fun w _ => ⟨fun ⟨x, hx⟩ => ⟨_, hx, x, rfl⟩, fun ⟨_, hx, r, e⟩ => ⟨r, e ▸ hx⟩⟩
  · next h => simp [h, good_error]

theorem good_readVec' {num : NumParser} {k : ℕ} {o : Option Name} :
    Good (readVec num k o) ↔ ∃ s, o = some s ∧ IsVec num finite k s := by
  cases o with
  | none => simp [readVec, good_error]
  | some s => simp [good_readVec]

theorem good_readV3 {num : NumParser} {o : Option Name} : Good (readV3 num o) ↔ ∃ s, o = some s ∧ IsVec num finite 3 s := by
  rw [readV3, good_bind (P := True) fun _ _ => good_pure _, and_true, good_readVec']

theorem good_readV3_some {num : NumParser} {s : Name} : Good (readV3 num (some s)) ↔ IsVec num finite 3 s := by
  simp [good_readV3]

theorem good_floatAttr {num : NumParser} {n : Xml} {k : Name} : Good (floatAttr num n k) ↔ HasAttr n k (IsNum num) := by
  rw [floatAttr, good_required, HasAttr]
  simp only [good_readFloat]

theorem good_floatElem {num : NumParser} {n : Xml} {k : Name} :
    Good (floatElem num n k) ↔ HasChild n k (HasText (IsNum num)) := by
  rw [floatElem, good_required, HasChild]
  simp only [good_readFloat', HasText]

theorem good_iff_not_error {x : Except Err α} : ¬ Good x ↔ ∃ e, x = .error e := by
  cases x with
  | ok a => simp [good_ok]
  | error e => simp [good_error]

theorem bind_eq_ok {x : Except Err α} {f : α → Except Err β} {b : β} : x >>= f = .ok b ↔ ∃ a, x = .ok a ∧ f a = .ok b := by
  cases x with
  | ok a => simp [ok_bind]
  | error e => simp [error_bind]

theorem not_good_bind {x : Except Err α} {f : α → Except Err β} (h : ¬ Good x) : ¬ Good (x >>= f) := by
  obtain ⟨e, rfl⟩ := good_iff_not_error.1 h
  simp [error_bind, good_error]

section mono
variable {num : NumParser} {n : Xml} {k : Name}

theorem HasAttr.mono {P Q : Name → Prop} (h : ∀ s, P s → Q s) : HasAttr n k P → HasAttr n k Q := fun ⟨s, a, b⟩ => ⟨s, a, h s b⟩
theorem OptAttr.mono {P Q : Name → Prop} (h : ∀ s, P s → Q s) : OptAttr n k P → OptAttr n k Q := fun a s b => h s (a s b)
theorem HasChild.mono {P Q : Xml → Prop} (h : ∀ s, P s → Q s) : HasChild n k P → HasChild n k Q := fun ⟨s, a, b⟩ => ⟨s, a, h s b⟩
theorem OptChild.mono {P Q : Xml → Prop} (h : ∀ s, P s → Q s) : OptChild n k P → OptChild n k Q := fun a s b => h s (a s b)
theorem EachChild.mono {P Q : Xml → Prop} (h : ∀ s, P s → Q s) : EachChild n k P → EachChild n k Q := fun a s b => h s (a s b)
theorem HasText.mono {P Q : Name → Prop} (h : ∀ s, P s → Q s) : HasText P n → HasText Q n := fun ⟨s, a, b⟩ => ⟨s, a, h s b⟩
theorem IsVec.mono {ok : Fl → Prop} (c : ℕ) (s : Name) : IsVec num ok c s → IsVec num anyNum c s :=
  fun ⟨a, b⟩ => ⟨a, fun w hw => let ⟨x, hx, _⟩ := b w hw; ⟨x, hx, trivial⟩⟩

variable {ok : Fl → Prop}

theorem urdfOrigin_mono (n : Xml) : Urdf.Origin num ok n → Urdf.Origin num anyNum n :=
  And.imp (OptAttr.mono (IsVec.mono 3)) (OptAttr.mono (IsVec.mono 3))

theorem urdfGeometry_mono (n : Xml) : Urdf.Geometry num ok n → Urdf.Geometry num anyNum n :=
  Exists.imp fun _ => And.imp_right <| Or.imp (And.imp_right (HasAttr.mono (IsVec.mono 3))) <| Or.imp_right <| Or.imp_right <|
    Or.imp_left <| And.imp_right <| And.imp_right <| OptAttr.mono (IsVec.mono 3)

theorem urdfMaterial_mono (n : Xml) : Urdf.Material num ok n → Urdf.Material num anyNum n :=
  And.imp_right <| And.imp_left <| OptChild.mono fun _ => HasAttr.mono (IsVec.mono 4)

theorem urdfVisual_mono (n : Xml) : Urdf.Visual num ok n → Urdf.Visual num anyNum n :=
  And.imp (OptChild.mono urdfOrigin_mono) <| And.imp (HasChild.mono urdfGeometry_mono) (OptChild.mono urdfMaterial_mono)

theorem urdfCollision_mono (n : Xml) : Urdf.Collision num ok n → Urdf.Collision num anyNum n :=
  And.imp (OptChild.mono urdfOrigin_mono) (HasChild.mono urdfGeometry_mono)

theorem urdfInertial_mono (n : Xml) : Urdf.Inertial num ok n → Urdf.Inertial num anyNum n :=
  And.imp_left (OptChild.mono urdfOrigin_mono)

theorem urdfLink_mono (n : Xml) : Urdf.Link num ok n → Urdf.Link num anyNum n :=
  And.imp_right <| And.imp (OptChild.mono urdfOrigin_mono) <| And.imp (EachChild.mono urdfVisual_mono) <|
    And.imp (EachChild.mono urdfCollision_mono) (OptChild.mono urdfInertial_mono)

theorem urdfJoint_mono (n : Xml) : Urdf.Joint num ok n → Urdf.Joint num anyNum n :=
  And.imp_right <| And.imp_right <| And.imp (OptChild.mono urdfOrigin_mono) <| And.imp_left <|
    OptChild.mono fun _ => HasAttr.mono (IsVec.mono 3)

theorem urdfValid_mono {doc : Xml} (h : Urdf.Valid num ok doc) : Urdf.Valid num anyNum doc where
  links := EachChild.mono urdfLink_mono h.links
  joints := EachChild.mono urdfJoint_mono h.joints
  transmissions := h.transmissions
  materials := EachChild.mono urdfMaterial_mono h.materials

theorem sdfPose_mono (n : Xml) : Sdf.Pose num ok n → Sdf.Pose num anyNum n := HasText.mono (IsVec.mono 6)

theorem sdfGeometry_mono (n : Xml) : Sdf.Geometry num ok n → Sdf.Geometry num anyNum n :=
  Exists.imp fun _ => And.imp_right <| Or.imp (And.imp_right (HasChild.mono fun _ => HasText.mono (IsVec.mono 3))) <| Or.imp_right <|
    Or.imp_right <| And.imp_right <| And.imp_right <| OptChild.mono fun _ => HasText.mono (IsVec.mono 3)

theorem sdfVisual_mono (n : Xml) : Sdf.Visual num ok n → Sdf.Visual num anyNum n :=
  And.imp (HasChild.mono sdfGeometry_mono) (OptChild.mono sdfPose_mono)

theorem sdfLink_mono (n : Xml) : Sdf.Link num ok n → Sdf.Link num anyNum n :=
  And.imp (HasChild.mono fun _ => And.imp_right <| And.imp_right <| OptChild.mono sdfPose_mono) <|
    And.imp (EachChild.mono sdfVisual_mono) <| And.imp (EachChild.mono sdfVisual_mono) (OptChild.mono sdfPose_mono)

theorem sdfJoint_mono (n : Xml) : Sdf.Joint num ok n → Sdf.Joint num anyNum n :=
  And.imp (HasChild.mono fun _ => And.imp_left <| HasChild.mono fun _ => HasText.mono (IsVec.mono 3)) <|
    And.imp_right <| And.imp_right <| OptChild.mono sdfPose_mono

theorem sdfValid_mono {doc : Xml} : Sdf.Valid num ok doc → Sdf.Valid num anyNum doc :=
  HasChild.mono fun _ => And.imp (EachChild.mono sdfLink_mono) <| And.imp (EachChild.mono sdfJoint_mono) (OptChild.mono sdfPose_mono)

end mono

end PK
