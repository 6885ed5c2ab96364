import Verif.Lemmas.ReflectWrite
import Verif.Model.ReflectTables

/-! # The tables of URDF and SDF: names are distinct, values can be written and read again -/

namespace PK.Reflect
open PK

variable {F : Fmt}

/-- decides that the names within a concrete table are distinct -/
macro "proper" : tactic => `(tactic| exact ⟨of_decide_eq_true rfl, of_decide_eq_true rfl, of_decide_eq_true rfl, of_decide_eq_true rfl⟩)

/-- `all![x, y]` proves a statement about all members of a list of two from proofs `x`, `y` for each -/
syntax "all![" term,* "]" : term
macro_rules
  | `(all![]) => `(fun _ h => absurd h List.not_mem_nil)
  | `(all![$x]) => `(List.forall_mem_cons.2 ⟨$x, all![]⟩)
  | `(all![$x, $xs,*]) => `(List.forall_mem_cons.2 ⟨$x, all![$xs,*]⟩)

theorem strT_all : (strT F).StableAll id id := ofString_stable strT_stable
theorem boolT_all : (boolT F).StableAll id id := ofString_stable boolT_stable
theorem floatT_all (hF : F.Exact) : (floatT F).StableAll id id := ofString_stable (floatT_stable hF)
theorem vecT_all (hF : F.Exact) {k : ℕ} (h : k ≠ 0) : (vecT F k).StableAll id id := ofString_stable (vecT_stable hF h)

theorem zero_text (hF : F.Exact) : zero ≠ .none ∧ ∃ s, (floatT F).toString zero = .ok s ∧ (floatT F).fromString (some s) = some zero :=
  ⟨by simp [zero], F.text (.fin 0), rfl, by simp [floatT, VType.ofString, hF.zero, zero]⟩

theorem zeros_text (hF : F.Exact) : PVal.vec [.fin 0, .fin 0, .fin 0] ≠ .none ∧
    ∃ s, (vecT F 3).toString (.vec [.fin 0, .fin 0, .fin 0]) = .ok s ∧
      (vecT F 3).fromString (some s) = some (.vec [.fin 0, .fin 0, .fin 0]) :=
  ⟨by simp, _, vec_text hF (by simp) rfl (by simp [hF.zero])⟩

namespace U

theorem pose_proper : (pose F).Proper := by proper
theorem color_proper : (color F).Proper := by proper
theorem dynamics_proper : (dynamics F).Proper := by proper
theorem box_proper : (box F).Proper := by proper
theorem cylinder_proper : (cylinder F).Proper := by proper
theorem capsule_proper : (capsule F).Proper := by proper
theorem sphere_proper : (sphere F).Proper := by proper
theorem mesh_proper : (mesh F).Proper := by proper
theorem collision_proper : (collision F).Proper := by proper
theorem texture_proper : (texture F).Proper := by proper
theorem material_proper : (material F).Proper := by proper
theorem linkMaterial_proper : (linkMaterial F).Proper := by proper
theorem visual_proper : (visual F).Proper := by proper
theorem inertia_proper : (inertia F).Proper := by proper
theorem inertial_proper : (inertial F).Proper := by proper
theorem calibration_proper : (calibration F).Proper := by proper
theorem limit_proper : (limit F).Proper := by proper
theorem mimic_proper : (mimic F).Proper := by proper
theorem safety_proper : (safety F).Proper := by proper
theorem joint_proper : (joint F).Proper := by proper
theorem link_proper : (link F).Proper := by proper
theorem pr2Transmission_proper : (pr2Transmission F).Proper := by proper
theorem actuator_proper : (actuator F).Proper := by proper
theorem transmissionJoint_proper : (transmissionJoint F).Proper := by proper
theorem transmission_proper : (transmission F).Proper := by proper
theorem robot_proper : (robot F).Proper := by proper

variable (hF : F.Exact)
include hF

theorem pose_stable : (pose F).type.StableAll id id :=
  Cls.stable_id pose_proper
    all![⟨vecT_stable hF (by simp), Or.inr (zeros_text hF)⟩, ⟨vecT_stable hF (by simp), Or.inr (zeros_text hF)⟩] all![] all![]
theorem color_stable : (color F).type.StableAll id id :=
  Cls.stable_id color_proper all![⟨vecT_stable hF (by simp), Or.inl rfl⟩] all![] all![]
theorem dynamics_stable : (dynamics F).type.StableAll id id :=
  Cls.stable_id dynamics_proper all![⟨floatT_stable hF, Or.inl rfl⟩, ⟨floatT_stable hF, Or.inl rfl⟩] all![] all![]
theorem box_stable : (box F).type.StableAll id id :=
  Cls.stable_id box_proper all![⟨vecT_stable hF (by simp), Or.inl rfl⟩] all![] all![]
theorem cylinder_stable : (cylinder F).type.StableAll id id :=
  Cls.stable_id cylinder_proper all![⟨floatT_stable hF, Or.inl rfl⟩, ⟨floatT_stable hF, Or.inl rfl⟩] all![] all![]
theorem capsule_stable : (capsule F).type.StableAll id id :=
  Cls.stable_id capsule_proper all![⟨floatT_stable hF, Or.inl rfl⟩, ⟨floatT_stable hF, Or.inl rfl⟩] all![] all![]
theorem sphere_stable : (sphere F).type.StableAll id id :=
  Cls.stable_id sphere_proper all![⟨floatT_stable hF, Or.inl rfl⟩] all![] all![]
theorem mesh_stable : (mesh F).type.StableAll id id :=
  Cls.stable_id mesh_proper all![⟨strT_stable, Or.inl rfl⟩, ⟨vecT_stable hF (by simp), Or.inl rfl⟩] all![] all![]
theorem geometric_stable : (geometricT (geometries F)).StableAll id id :=
  geometricT_stable (of_decide_eq_true rfl) (of_decide_eq_true rfl)
    all![box_stable hF, cylinder_stable hF, sphere_stable hF, mesh_stable hF, capsule_stable hF]
    all![fun _ _ h => read_cls h, fun _ _ h => read_cls h, fun _ _ h => read_cls h, fun _ _ h => read_cls h,
      fun _ _ h => read_cls h]
theorem collision_stable : (collision F).type.StableAll id id :=
  Cls.stable_id collision_proper all![] all![⟨(pose_stable hF).stable, rfl⟩, ⟨(geometric_stable hF).stable, rfl⟩] all![]
omit hF in
theorem texture_stable : (texture F).type.StableAll id id :=
  Cls.stable_id texture_proper all![⟨strT_stable, Or.inl rfl⟩] all![] all![]
theorem material_stable : (material F).type.StableAll id id :=
  Cls.stable_id material_proper all![⟨strT_stable, Or.inl rfl⟩]
    all![⟨(color_stable hF).stable, rfl⟩, ⟨texture_stable.stable, rfl⟩] all![]
theorem linkMaterial_stable : (linkMaterial F).type.StableAll id id :=
  Cls.stable_id linkMaterial_proper all![⟨strT_stable, Or.inl rfl⟩]
    all![⟨(color_stable hF).stable, rfl⟩, ⟨texture_stable.stable, rfl⟩] all![]
theorem visual_stable : (visual F).type.StableAll id id :=
  Cls.stable_id visual_proper all![] all![⟨(pose_stable hF).stable, rfl⟩, ⟨(geometric_stable hF).stable, rfl⟩,
    ⟨(linkMaterial_stable hF).stable, rfl⟩] all![]
theorem inertia_stable : (inertia F).type.StableAll id id :=
  Cls.stable_id inertia_proper all![⟨floatT_stable hF, Or.inl rfl⟩, ⟨floatT_stable hF, Or.inl rfl⟩,
    ⟨floatT_stable hF, Or.inl rfl⟩, ⟨floatT_stable hF, Or.inl rfl⟩, ⟨floatT_stable hF, Or.inl rfl⟩,
    ⟨floatT_stable hF, Or.inl rfl⟩] all![] all![]
theorem inertial_stable : (inertial F).type.StableAll id id :=
  Cls.stable_id inertial_proper all![] all![⟨(pose_stable hF).stable, rfl⟩, ⟨(simpleT_stable (floatT_stable hF) _).stable, rfl⟩,
    ⟨(inertia_stable hF).stable, rfl⟩] all![]
theorem calibration_stable : (calibration F).type.StableAll id id :=
  Cls.stable_id calibration_proper
    all![⟨floatT_stable hF, Or.inr (zero_text hF)⟩, ⟨floatT_stable hF, Or.inr (zero_text hF)⟩] all![] all![]
theorem limit_stable : (limit F).type.StableAll id id :=
  Cls.stable_id limit_proper all![⟨floatT_stable hF, Or.inl rfl⟩, ⟨floatT_stable hF, Or.inr (zero_text hF)⟩,
    ⟨floatT_stable hF, Or.inr (zero_text hF)⟩, ⟨floatT_stable hF, Or.inl rfl⟩] all![] all![]
theorem mimic_stable : (mimic F).type.StableAll id id :=
  Cls.stable_id mimic_proper all![⟨strT_stable, Or.inl rfl⟩, ⟨floatT_stable hF, Or.inl rfl⟩,
    ⟨floatT_stable hF, Or.inl rfl⟩] all![] all![]
theorem safety_stable : (safety F).type.StableAll id id :=
  Cls.stable_id safety_proper all![⟨floatT_stable hF, Or.inl rfl⟩, ⟨floatT_stable hF, Or.inr (zero_text hF)⟩,
    ⟨floatT_stable hF, Or.inr (zero_text hF)⟩, ⟨floatT_stable hF, Or.inr (zero_text hF)⟩] all![] all![]
theorem joint_stable : (joint F).type.StableAll id id :=
  Cls.stable_id joint_proper all![⟨strT_stable, Or.inl rfl⟩, ⟨strT_stable, Or.inl rfl⟩]
    all![⟨(pose_stable hF).stable, rfl⟩, ⟨(simpleT_stable (vecT_stable hF (by simp)) _).stable, rfl⟩,
      ⟨(simpleT_stable strT_stable _).stable, rfl⟩, ⟨(simpleT_stable strT_stable _).stable, rfl⟩,
      ⟨(limit_stable hF).stable, rfl⟩, ⟨(dynamics_stable hF).stable, rfl⟩, ⟨(safety_stable hF).stable, rfl⟩,
      ⟨(calibration_stable hF).stable, rfl⟩, ⟨(mimic_stable hF).stable, rfl⟩] all![]
theorem link_stable : (link F).type.StableAll id id :=
  Cls.stable_id link_proper all![⟨strT_stable, Or.inl rfl⟩]
    all![⟨(pose_stable hF).stable, rfl⟩, ⟨(inertial_stable hF).stable, rfl⟩]
    all![(visual_stable hF).stable, (collision_stable hF).stable]
theorem actuator_stable : (actuator F).type.StableAll id id :=
  Cls.stable_id actuator_proper all![⟨strT_stable, Or.inl rfl⟩] all![⟨(floatT_all hF).stable, rfl⟩] all![]
omit hF in
theorem transmissionJoint_stable : (transmissionJoint F).type.StableAll id id :=
  Cls.stable_id transmissionJoint_proper all![⟨strT_stable, Or.inl rfl⟩] all![] all![strT_all.stable]
theorem transmission_stable : (transmission F).type.StableAll id id :=
  Cls.stable_id transmission_proper all![⟨strT_stable, Or.inl rfl⟩] all![⟨strT_all.stable, rfl⟩]
    all![transmissionJoint_stable.stable, (actuator_stable hF).stable]
theorem duck_stable : (duckT [transmission F, pr2Transmission F]).StableAll id id := by
  refine duckT_stable (by simp [transmission, pr2Transmission]) (transmission_stable hF) fun n v hv hf k => ?_
  obtain ⟨as, cs, h1, h2, h3⟩ := Cls.written_id pr2Transmission_proper
    all![⟨strT_stable, Or.inl rfl⟩, ⟨strT_stable, Or.inl rfl⟩]
    all![⟨(simpleT_stable strT_stable _).stable, rfl⟩, ⟨(simpleT_stable strT_stable _).stable, rfl⟩,
      ⟨(floatT_all hF).stable, rfl⟩] all![] n v hv hf k
  refine ⟨as, cs, h1, h2, ?_⟩
  cases e : (transmission F).read (.elem k as none cs) with
  | none => rfl
  | some w =>
    obtain ⟨o, ho, _⟩ := (Cls.read_iff transmission_proper).1 e
    obtain ⟨x, hx, _⟩ := ho.scal { xmlVar := n!"type", vt := strT F } (by simp [transmission])
    have : (Xml.elem k as none cs).scalar n!"type" = none := by
      simp only [Xml.scalar, List.find?_eq_none, Xml.children, List.mem_filter, and_imp]
      intro d hd _ r
      have := h3 d hd
      simp only [beq_iff_eq] at r
      rw [r] at this
      revert this
      simp [pr2Transmission]
    simp [scalVal, this] at hx

/-- what becomes of the aggregates of a robot that is written and read again -/
def robotClean (k : Name) (v : PVal) : PVal := if k = n!"gazebo" then cleanRaw v else v
/-- what is left of the aggregates of a robot that was written -/
def robotAfter (k : Name) (v : PVal) : PVal := if k = n!"gazebo" then emptyRaw v else v

theorem robot_written (n : Xml) (v : PVal) (hv : (robot F).read n = some v) (hf : ¬ HasFalse v) (k : Name) :
    ∃ as cs, (robot F).write (Xml.fresh k) v = .ok (.elem k as none cs, mapOrder robotAfter v) ∧
      (robot F).read (.elem k as none cs) = some (mapOrder robotClean v) := by
  obtain ⟨as, cs, h1, h2, _⟩ := Cls.written robot_proper robotClean robotAfter
    all![⟨strT_stable, Or.inl rfl⟩] all![]
    all![(link_stable hF).stable, (joint_stable hF).stable, rawT_stable, (duck_stable hF).stable, (material_stable hF).stable]
    (fun _ _ _ => rfl) n v hv hf k
  exact ⟨as, cs, h1, h2⟩

end U

namespace S

theorem inertia_proper : (inertia F).Proper := by proper
theorem inertial_proper : (inertial F).Proper := by proper
theorem box_proper : (box F).Proper := by proper
theorem cylinder_proper : (cylinder F).Proper := by proper
theorem sphere_proper : (sphere F).Proper := by proper
theorem mesh_proper : (mesh F).Proper := by proper
theorem script_proper : (script F).Proper := by proper
theorem material_proper : (material F).Proper := by proper
theorem visual_proper : (visual F).Proper := by proper
theorem collision_proper : (collision F).Proper := by proper
theorem dynamics_proper : (dynamics F).Proper := by proper
theorem limit_proper : (limit F).Proper := by proper
theorem axis_proper : (axis F).Proper := by proper
theorem joint_proper : (joint F).Proper := by proper
theorem link_proper : (link F).Proper := by proper
theorem model_proper : (model F).Proper := by proper
theorem sdf_proper : (sdf F).Proper := by proper

variable (hF : F.Exact)
include hF

theorem inertia_stable : (inertia F).type.StableAll id id :=
  Cls.stable_id inertia_proper all![] all![⟨(floatT_all hF).stable, rfl⟩, ⟨(floatT_all hF).stable, rfl⟩,
    ⟨(floatT_all hF).stable, rfl⟩, ⟨(floatT_all hF).stable, rfl⟩, ⟨(floatT_all hF).stable, rfl⟩,
    ⟨(floatT_all hF).stable, rfl⟩] all![]
theorem pose_stable : (poseElem F).vt.Stable id id ∧ (poseElem F).dflt = .none := ⟨(vecT_all hF (by simp)).stable, rfl⟩
theorem inertial_stable : (inertial F).type.StableAll id id :=
  Cls.stable_id inertial_proper all![]
    all![⟨(floatT_all hF).stable, rfl⟩, ⟨(inertia_stable hF).stable, rfl⟩, pose_stable hF] all![]
theorem box_stable : (box F).type.StableAll id id :=
  Cls.stable_id box_proper all![] all![⟨(vecT_all hF (by simp)).stable, rfl⟩] all![]
theorem cylinder_stable : (cylinder F).type.StableAll id id :=
  Cls.stable_id cylinder_proper all![] all![⟨(floatT_all hF).stable, rfl⟩, ⟨(floatT_all hF).stable, rfl⟩] all![]
theorem sphere_stable : (sphere F).type.StableAll id id :=
  Cls.stable_id sphere_proper all![] all![⟨(floatT_all hF).stable, rfl⟩] all![]
theorem mesh_stable : (mesh F).type.StableAll id id :=
  Cls.stable_id mesh_proper all![] all![⟨strT_all.stable, rfl⟩, ⟨(vecT_all hF (by simp)).stable, rfl⟩] all![]
theorem geometric_stable : (geometricT (geometries F)).StableAll id id :=
  geometricT_stable (of_decide_eq_true rfl) (of_decide_eq_true rfl)
    all![box_stable hF, cylinder_stable hF, sphere_stable hF, mesh_stable hF]
    all![fun _ _ h => read_cls h, fun _ _ h => read_cls h, fun _ _ h => read_cls h, fun _ _ h => read_cls h]
omit hF in
theorem script_stable : (script F).type.StableAll id id :=
  Cls.stable_id script_proper all![] all![⟨strT_all.stable, rfl⟩, ⟨strT_all.stable, rfl⟩] all![]
omit hF in
theorem material_stable : (material F).type.StableAll id id :=
  Cls.stable_id material_proper all![⟨strT_stable, Or.inl rfl⟩] all![⟨script_stable.stable, rfl⟩] all![]
theorem visual_stable : (visual F).type.StableAll id id :=
  Cls.stable_id visual_proper all![⟨strT_stable, Or.inl rfl⟩]
    all![⟨(geometric_stable hF).stable, rfl⟩, ⟨material_stable.stable, rfl⟩, pose_stable hF] all![]
theorem collision_stable : (collision F).type.StableAll id id :=
  Cls.stable_id collision_proper all![⟨strT_stable, Or.inl rfl⟩]
    all![⟨(geometric_stable hF).stable, rfl⟩, pose_stable hF] all![]
theorem dynamics_stable : (dynamics F).type.StableAll id id :=
  Cls.stable_id dynamics_proper all![] all![⟨(floatT_all hF).stable, rfl⟩, ⟨(floatT_all hF).stable, rfl⟩] all![]
theorem limit_stable : (limit F).type.StableAll id id :=
  Cls.stable_id limit_proper all![] all![⟨(floatT_all hF).stable, rfl⟩, ⟨(floatT_all hF).stable, rfl⟩] all![]
theorem axis_stable : (axis F).type.StableAll id id :=
  Cls.stable_id axis_proper all![] all![⟨(vecT_all hF (by simp)).stable, rfl⟩, ⟨(limit_stable hF).stable, rfl⟩,
    ⟨(dynamics_stable hF).stable, rfl⟩, ⟨boolT_all.stable, rfl⟩] all![]
theorem joint_stable : (joint F).type.StableAll id id :=
  Cls.stable_id joint_proper all![⟨strT_stable, Or.inl rfl⟩, ⟨strT_stable, Or.inl rfl⟩]
    all![⟨(axis_stable hF).stable, rfl⟩, ⟨strT_all.stable, rfl⟩, ⟨strT_all.stable, rfl⟩, pose_stable hF] all![]
theorem link_stable : (link F).type.StableAll id id :=
  Cls.stable_id link_proper all![⟨strT_stable, Or.inl rfl⟩, ⟨boolT_stable, Or.inl rfl⟩]
    all![⟨(inertial_stable hF).stable, rfl⟩, pose_stable hF]
    all![(visual_stable hF).stable, (collision_stable hF).stable]
theorem model_stable : (model F).type.StableAll id id :=
  Cls.stable_id model_proper all![⟨strT_stable, Or.inl rfl⟩] all![pose_stable hF]
    all![(link_stable hF).stable, (joint_stable hF).stable]
theorem sdf_stable : (sdf F).type.StableAll id id :=
  Cls.stable_id sdf_proper all![⟨strT_stable, Or.inl rfl⟩] all![⟨(model_stable hF).stable, rfl⟩] all![]

end S
end PK.Reflect
