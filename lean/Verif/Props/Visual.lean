import Verif.Spec.Visual
import Verif.Props.Urdf2
import Verif.Props.Sdf2
import Verif.Props.Mjcf2

/-!
# C92: the visuals of the loaded links
-/

namespace PK
open Spec Matrix

/-- The turn that `SamePlace` leaves open does not change what a cylinder occupies. -/
theorem C92_turned_cylinder (P : M4) (r l φ : ℝ) :
    moved (P * mkHom (elem .z φ) 0) (cylinderSolid r l) = moved P (cylinderSolid r l) := by
  have key : ∀ φ : ℝ, ∀ x ∈ cylinderSolid r l, ∃ y ∈ cylinderSolid r l,
      mkHom (elem .z φ) 0 *ᵥ ![x 0, x 1, x 2, 1] = ![y 0, y 1, y 2, 1] := by
    intro φ x hx
    refine ⟨![Real.cos φ * x 0 - Real.sin φ * x 1, Real.sin φ * x 0 + Real.cos φ * x 1, x 2], ⟨?_, hx.2⟩, ?_⟩
    · have := hx.1
      have e := Real.sin_sq_add_cos_sq φ
      have : (Real.cos φ * x 0 - Real.sin φ * x 1) ^ 2 + (Real.sin φ * x 0 + Real.cos φ * x 1) ^ 2 = x 0 ^ 2 + x 1 ^ 2 := by
        linear_combination (x 0 ^ 2 + x 1 ^ 2) * e
      simpa [this]
    · funext i
      fin_cases i <;>
        simp [mkHom, elem_entries, Matrix.mulVec, dotProduct, Fin.sum_univ_four] <;> ring
  have back : mkHom (elem .z φ) 0 * mkHom (elem .z (-φ)) 0 = 1 := by
    rw [mkHom_mul, ← mkHom_one]
    congr 1
    · have : (elem .z (-φ)) = (elem .z φ)ᵀ := by
        ext i j
        fin_cases i <;> fin_cases j <;> simp [elem_entries]
      rw [this, (Sdf.elem_isRot .z φ).mul_transpose]
    · simp
  ext z
  constructor
  · rintro ⟨x, hx, rfl⟩
    obtain ⟨y, hy, e⟩ := key φ x hx
    exact ⟨y, hy, by rw [← Matrix.mulVec_mulVec, e]⟩
  · rintro ⟨x, hx, rfl⟩
    obtain ⟨y, hy, e⟩ := key (-φ) x hx
    refine ⟨y, hy, ?_⟩
    rw [← e, ← Matrix.mulVec_mulVec, Matrix.mulVec_mulVec _ (mkHom (elem .z φ) 0), back, Matrix.one_mulVec]

namespace Urdf

/-- The full statement for one link: the visuals of the frame are the declared ones, in order. -/
def LinkShown (l : Lnk) (g : Frame) : Prop :=
  List.Forall₂ (fun v w => Shows (originT v.origin) (urdfShape v.geometry) w) l.visuals g.link.visuals

theorem keptVisual_shows (v : Vis) (h : ∀ r l, v.geometry ≠ .capsule r l) :
    Shows (originT v.origin) (urdfShape v.geometry) (keptVisual (some v)) := by
  refine ⟨⟨_, rfl, Or.inl rfl⟩, ?_⟩
  cases hg : v.geometry with
  | capsule r l => exact absurd hg (h r l)
  | mesh f s => simp [Dims, urdfShape, keptVisual, hg, Geom.gType, Geom.gParam]
  | _ => simp [Dims, urdfShape, keptVisual, hg, Geom.gType, Geom.gParam]

/-- C92 (part), URDF: a link that declares visuals gets exactly one, which stands for the first declared one (unless that is
a capsule): its pose, shape and dimensions.  So a link with one such visual is shown as declared.
Missing from the full statement (`LinkShown` for every link): links with several visuals or none, and capsules, see
`C92_urdf_fails`. -/
theorem C92_urdf_partial (num : NumParser) (sh : Fl → Name) (r : Robot) (root : Name) (h : UrdfTree r root)
    (hne : r.joints ≠ []) (hk : ∀ j ∈ r.joints, urdfKind j.type ≠ none) (hw : RobotWritten num sh r)
    (fuel : ℕ) (hf : r.links.length ≤ fuel) :
    ∃ f, buildChain num fuel (robotXml sh r) = .ok (Chain.init f) ∧
      ((preorder f).map Frame.name).Perm (r.links.map Lnk.name) ∧
      ∀ g ∈ preorder f, ∀ l ∈ r.links, l.name = g.name →
        (∀ v vs, l.visuals = v :: vs → (∀ a b, v.geometry ≠ .capsule a b) →
          ∃ w, g.link.visuals = [w] ∧ Shows (originT v.origin) (urdfShape v.geometry) w) ∧
        (∀ v, l.visuals = [v] → (∀ a b, v.geometry ≠ .capsule a b) → LinkShown l g) := by
  obtain ⟨f, h1, h2⟩ := C22_document num sh r root h hne hk hw fuel hf
  refine ⟨f, h1, h2.frames, fun g hg l hl e => ?_⟩
  obtain ⟨l', hl', e', _, _, hv⟩ := h2.links g hg
  have : l = l' := List.inj_on_of_nodup_map h.links_nodup hl hl' (e.trans e'.symm)
  subst this
  refine ⟨fun v vs hvs hc => ⟨_, hv, ?_⟩, fun v hvs hc => ?_⟩
  · rw [hvs]; exact keptVisual_shows v hc
  · unfold LinkShown
    rw [hv, hvs]
    exact .cons (keptVisual_shows v hc) .nil

/-- C92 is false for URDF: in every loaded tree, a link that declares no visual or more than one, or a capsule as its first
visual, is not shown as declared. -/
theorem C92_urdf_fails (num : NumParser) (sh : Fl → Name) (r : Robot) (root : Name) (h : UrdfTree r root)
    (hne : r.joints ≠ []) (hk : ∀ j ∈ r.joints, urdfKind j.type ≠ none) (hw : RobotWritten num sh r)
    (fuel : ℕ) (hf : r.links.length ≤ fuel) (l : Lnk) (hl : l ∈ r.links)
    (hv : l.visuals.length ≠ 1 ∨ ∃ v vs a b, l.visuals = v :: vs ∧ v.geometry = .capsule a b) :
    ∃ f, buildChain num fuel (robotXml sh r) = .ok (Chain.init f) ∧
      ∃ g ∈ preorder f, g.name = l.name ∧ g.link.visuals.length = 1 ∧ ¬ LinkShown l g := by
  obtain ⟨f, h1, h2⟩ := C22_document num sh r root h hne hk hw fuel hf
  obtain ⟨g, hg, e⟩ := List.mem_map.1 (h2.frames.mem_iff.2 (List.mem_map_of_mem hl))
  refine ⟨f, h1, g, hg, e, ?_⟩
  obtain ⟨l', hl', e', _, _, hv'⟩ := h2.links g hg
  have : l = l' := List.inj_on_of_nodup_map h.links_nodup hl hl' (e.symm.trans e'.symm)
  subst this
  refine ⟨by rw [hv']; rfl, fun hs => ?_⟩
  unfold LinkShown at hs
  rcases hv with hv | ⟨v, vs, a, b, hvs, hc⟩
  · rw [hv'] at hs
    exact hv hs.length_eq
  · rw [hv', hvs] at hs
    cases hs with
    | cons h0 _ =>
      have := h0.2
      simp [keptVisual, urdfShape, hc, Dims, Geom.gType] at this

/-- the second link of the example robot is shown with its first visual, a cylinder; its box and its sphere are lost; the
first link, which shows nothing, gets an empty visual -/
example : ∃ f, buildChain exNum 9 (robotXml exShow exSmall) = .ok (Chain.init f) ∧
    (∃ g ∈ preorder f, g.name = n!"b" ∧ ∃ w, g.link.visuals = [w] ∧ w.geomType = some (.name n!"cylinder") ∧
      w.geomParam = .radiusLength (.fin 1) (.fin 0)) ∧
    (∃ g ∈ preorder f, g.name = n!"b" ∧ ¬ LinkShown exSmall.links[1] g) ∧
    ∃ g ∈ preorder f, g.name = n!"a" ∧ ¬ LinkShown exSmall.links[0] g := by
  have hne : exSmall.joints ≠ [] := by simp [exSmall]
  have hk : ∀ j ∈ exSmall.joints, urdfKind j.type ≠ none := by simp [exSmall, urdfKind]
  obtain ⟨f, h1, h2, h3⟩ := C92_urdf_partial exNum exShow exSmall n!"a" exSmall_tree hne hk exSmall_written 9 (by simp [exSmall])
  refine ⟨f, h1, ?_, ?_, ?_⟩
  · obtain ⟨g, hg, e⟩ := List.mem_map.1 (h2.mem_iff.2 (List.mem_map_of_mem (a := exSmall.links[1]) (by simp [exSmall])))
    refine ⟨g, hg, e, ?_⟩
    obtain ⟨w, hw, _, hs⟩ := (h3 g hg exSmall.links[1] (by simp [exSmall]) e.symm).1 _ _ rfl (by simp)
    exact ⟨w, hw, hs.1, hs.2⟩
  · obtain ⟨f', h1', g, hg, e, _, hs⟩ := C92_urdf_fails exNum exShow exSmall n!"a" exSmall_tree hne hk exSmall_written 9
      (by simp [exSmall]) exSmall.links[1] (by simp [exSmall]) (Or.inl (by simp [exSmall]))
    have : f = f' := by
      rw [h1] at h1'
      exact congrArg Chain.root (Except.ok.inj h1')
    exact ⟨g, this ▸ hg, e, hs⟩
  · obtain ⟨f', h1', g, hg, e, _, hs⟩ := C92_urdf_fails exNum exShow exSmall n!"a" exSmall_tree hne hk exSmall_written 9
      (by simp [exSmall]) exSmall.links[0] (by simp [exSmall]) (Or.inl (by simp [exSmall]))
    have : f = f' := by
      rw [h1] at h1'
      exact congrArg Chain.root (Except.ok.inj h1')
    exact ⟨g, this ▸ hg, e, hs⟩

end Urdf

namespace Sdf

/-- The full statement for one link: the visuals of the frame are the declared ones, in order. -/
def LinkShown (l : Lnk) (g : Frame) : Prop :=
  List.Forall₂ (fun v w => Shows (sdfPose v.pose) (sdfShape v.geometry) w) l.visuals g.link.visuals

theorem keptVisual_shows (v : Vis) (h : ∀ f s, v.geometry ≠ .mesh f (some s)) :
    Shows (sdfPoseZYX v.pose) (sdfShape v.geometry) (keptVisual v) := by
  cases hg : v.geometry with
  | cylinder r l =>
    refine ⟨⟨_, rfl, Or.inr ⟨⟨r, l, Or.inl rfl⟩, Real.pi / 2, by simp only [hg]⟩⟩, ?_⟩
    simp [Dims, sdfShape, keptVisual, hg, Geom.gType, Geom.gParam]
  | mesh f s =>
    cases s with
    | some s => exact absurd hg (h f s)
    | none =>
      refine ⟨⟨_, rfl, Or.inl (by simp only [hg])⟩, ?_⟩
      simp [Dims, sdfShape, keptVisual, hg, Geom.gType, Geom.gParam]
  | _ =>
    refine ⟨⟨_, rfl, Or.inl (by simp only [hg])⟩, ?_⟩
    simp [Dims, sdfShape, keptVisual, hg, Geom.gType, Geom.gParam]

/-- C92 (part), SDF: every link gets one visual for each declared one, in order, with its shape and dimensions and, when
roll equals yaw, its pose; only scaled meshes are excluded.
Missing from the full statement (`LinkShown` for every link): poses whose roll differs from the yaw and scaled meshes, see
`C92_sdf_scale_fails` and `C92_sdf_pose_fails`. -/
theorem C92_sdf_partial (num : NumParser) (sh : Fl → Name) (m : Model) (names : List Name) (root : Name)
    (h : SdfTree m names root) (hne : m.joints ≠ []) (hm : SdfWritten num sh m) (fuel : ℕ) (hf : m.links.length ≤ fuel) :
    ∃ f, buildChain num fuel (sdfXml sh m) = .ok (Chain.init f) ∧ ((preorder f).map Frame.name).Perm names ∧
      ∀ g ∈ preorder f, ∀ l ∈ m.links, l.name = some g.name →
        g.link.visuals.length = l.visuals.length ∧
        ((∀ v ∈ l.visuals, (∀ f s, v.geometry ≠ .mesh f (some s)) ∧ ∀ p, v.pose = some p → p.rpy 0 = p.rpy 2) →
          LinkShown l g) ∧
        ((∀ v ∈ l.visuals, ∀ f s, v.geometry ≠ .mesh f (some s)) →
          List.Forall₂ (fun v w => ∃ P, Shows P (sdfShape v.geometry) w) l.visuals g.link.visuals) := by
  obtain ⟨f, h1, h2⟩ := C27_document num sh m names root h hne hm fuel hf
  refine ⟨f, h1, ?_, fun g hg l hl e => ?_⟩
  · have := h2.frames
    rw [h.named] at this
    have e2 : ((preorder f).map fun g => some g.name) = ((preorder f).map Frame.name).map some := by
      rw [List.map_map]; rfl
    rw [e2] at this
    exact (List.map_perm_map_iff (Option.some_injective _)).1 this
  · have hv := (h2.links g hg).2.2 l hl e
    refine ⟨by rw [hv, List.length_map], fun hc => ?_, fun hc => ?_⟩
    · unfold LinkShown
      rw [hv, List.forall₂_map_right_iff, List.forall₂_same]
      intro v hv
      have hp : sdfPose v.pose = sdfPoseZYX v.pose := by
        cases hp : v.pose with
        | none => rfl
        | some p => simp only [sdfPoseZYX, sdfPose, rpyPose, (hc v hv).2 p hp]
      rw [hp]
      exact keptVisual_shows v (hc v hv).1
    · rw [hv, List.forall₂_map_right_iff, List.forall₂_same]
      intro v hv
      exact ⟨_, keptVisual_shows v (hc v hv)⟩

/-- C92 is false for SDF: in every loaded tree, a link with a scaled mesh is not shown as declared. -/
theorem C92_sdf_scale_fails (num : NumParser) (sh : Fl → Name) (m : Model) (names : List Name) (root : Name)
    (h : SdfTree m names root) (hne : m.joints ≠ []) (hm : SdfWritten num sh m) (fuel : ℕ) (hf : m.links.length ≤ fuel)
    (l : Lnk) (hl : l ∈ m.links) (v : Vis) (hv : v ∈ l.visuals) (file : Name) (s : V3) (hs : v.geometry = .mesh file (some s)) :
    ∃ f, buildChain num fuel (sdfXml sh m) = .ok (Chain.init f) ∧
      ∃ g ∈ preorder f, some g.name = l.name ∧ ¬ LinkShown l g := by
  obtain ⟨f, h1, h2⟩ := C27_document num sh m names root h hne hm fuel hf
  obtain ⟨g, hg, e⟩ := List.mem_map.1 (h2.frames.mem_iff.2 (List.mem_map_of_mem hl))
  refine ⟨f, h1, g, hg, e, fun hc => ?_⟩
  unfold LinkShown at hc
  rw [(h2.links g hg).2.2 l hl e.symm, List.forall₂_map_right_iff, List.forall₂_same] at hc
  have := (hc v hv).2
  simp [hs, sdfShape, Dims, keptVisual, Geom.gType, Geom.gParam] at this

/-- C92 is false for SDF: in every loaded tree, a link that shows a box rolled by a quarter turn is not shown as declared. -/
theorem C92_sdf_pose_fails (num : NumParser) (sh : Fl → Name) (m : Model) (names : List Name) (root : Name)
    (h : SdfTree m names root) (hne : m.joints ≠ []) (hm : SdfWritten num sh m) (fuel : ℕ) (hf : m.links.length ≤ fuel)
    (l : Lnk) (hl : l ∈ m.links) (x size : V3) (hv : ⟨some ⟨x, ![Real.pi / 2, 0, 0]⟩, .box size⟩ ∈ l.visuals) :
    ∃ f, buildChain num fuel (sdfXml sh m) = .ok (Chain.init f) ∧
      ∃ g ∈ preorder f, some g.name = l.name ∧ ¬ LinkShown l g := by
  obtain ⟨f, h1, h2⟩ := C27_document num sh m names root h hne hm fuel hf
  obtain ⟨g, hg, e⟩ := List.mem_map.1 (h2.frames.mem_iff.2 (List.mem_map_of_mem hl))
  refine ⟨f, h1, g, hg, e, fun hc => ?_⟩
  unfold LinkShown at hc
  rw [(h2.links g hg).2.2 l hl e.symm, List.forall₂_map_right_iff, List.forall₂_same] at hc
  obtain ⟨⟨o, ho, hp⟩, _⟩ := hc _ hv
  rcases hp with hp | ⟨⟨r, l, hr | hr⟩, _⟩
  · rw [hp] at ho
    have := congrFun (congrFun (Option.some.inj ho) 0) 0
    simp [keptVisual, sdfPose, sdfPoseZYX, rpyPose, mkHom, elem, rotAbout, rodrigues, XYZ.vec, Matrix.mul_apply,
      Fin.sum_univ_three, cross_apply, dot] at this
  · cases hr
  · cases hr

/-- the example model: the second link, a sphere, is shown; the first one has a scaled mesh -/
example : ∃ f, buildChain exNum 9 (sdfXml exShow exSmall) = .ok (Chain.init f) ∧
    (∃ g ∈ preorder f, g.name = n!"b" ∧ LinkShown exSmall.links[1] g ∧ g.link.visuals.length = 1) ∧
    ∃ g ∈ preorder f, some g.name = some n!"a" ∧ ¬ LinkShown exSmall.links[0] g := by
  have hne : exSmall.joints ≠ [] := by simp [exSmall]
  obtain ⟨f, h1, h2, h3⟩ := C92_sdf_partial exNum exShow exSmall _ n!"a" exSmall_tree hne exSmall_written 9 (by simp [exSmall])
  refine ⟨f, h1, ?_, ?_⟩
  · obtain ⟨g, hg, e⟩ := List.mem_map.1 (h2.mem_iff.2 (show n!"b" ∈ [n!"a", n!"b"] by simp))
    obtain ⟨a, b, _⟩ := h3 g hg exSmall.links[1] (by simp [exSmall]) (by rw [e]; rfl)
    refine ⟨g, hg, e, b ?_, a⟩
    simp [exSmall]
  · obtain ⟨f', h1', g, hg, e, hs⟩ := C92_sdf_scale_fails exNum exShow exSmall _ n!"a" exSmall_tree hne exSmall_written 9
      (by simp [exSmall]) exSmall.links[0] (by simp [exSmall]) ⟨some ⟨![1, 0, 0], ![0, 1, 0]⟩, .mesh n!"m.stl" (some ![1, 1, 1])⟩
      (by simp [exSmall]) _ _ rfl
    have : f = f' := by
      rw [h1] at h1'
      exact congrArg Chain.root (Except.ok.inj h1')
    exact ⟨g, this ▸ hg, e, hs⟩

end Sdf

namespace Mjcf

/-- C92, MJCF: every body shows exactly its geoms, in the order of the compiled model, each at its declared pose and with the
type code and sizes of the compiled model; a site shows nothing. -/
theorem C92_mjcf_geoms (m : MjModel) (h : MjSupported m) (hq : ∀ x ∈ m.geoms, toH x.quat ≠ 0) (fuel : ℕ)
    (hf : m.bodies.length + m.sites.length ≤ fuel) :
    ∃ f, buildRoot m fuel .default = .ok f ∧ ∀ g ∈ preorder f,
      (∀ i b, m.bodies[i]? = some b → g.name = b.name →
        List.Forall₂ (fun x w => w.offset = some (quatPose x.pos x.quat) ∧ w.geomType = some (.code x.type) ∧
          w.geomParam = .size x.size) (m.geoms.filter fun x => x.bodyid = i) g.link.visuals) ∧
      ∀ s ∈ m.sites, g.name = s.name → g.link.visuals = [] := by
  obtain ⟨f, h1, h2⟩ := C29_mjcf_tree m h fuel hf
  refine ⟨f, h1, fun g hg => ?_⟩
  have hn := List.nodup_append.1 h.names
  rcases h2.visuals g hg with ⟨i, b, hb, e, hv⟩ | ⟨s, hs, e, hv⟩
  · refine ⟨fun i' b' hb' e' => ?_, fun s hs e' => ?_⟩
    · have : i = i' := by
        obtain ⟨k1, k1'⟩ := List.getElem?_eq_some_iff.1 hb
        obtain ⟨k2, k2'⟩ := List.getElem?_eq_some_iff.1 hb'
        refine (List.Nodup.getElem_inj_iff hn.1 (i := i) (j := i') (hi := by simpa) (hj := by simpa)).1 ?_
        simp only [List.getElem_map, k1', k2']
        rw [← e, ← e']
      subst this
      rw [hv, List.forall₂_map_right_iff]
      have : (m.geoms.filter fun x => decide (x.bodyid = i)) = m.geoms.filter fun x => x.bodyid == i := rfl
      rw [this, List.forall₂_same]
      intro x hx
      exact ⟨by rw [← poseMatrix_eq (hq x (List.mem_filter.1 hx).1)]; rfl, rfl, rfl⟩
    · exact absurd (e.symm.trans e') (hn.2.2 _ (List.mem_map_of_mem (List.mem_of_getElem? hb)) _ (List.mem_map_of_mem hs))
  · refine ⟨fun i' b' hb' e' => ?_, fun s hs e' => hv⟩
    exact absurd (e'.symm.trans e) (hn.2.2 _ (List.mem_map_of_mem (List.mem_of_getElem? hb')) _ (List.mem_map_of_mem hs))

/-- C92 is false for MJCF in the terms `Visual` documents: whatever the geom, its visual stands for no shape, because its
type is the integer code of MuJoCo instead of one of `Visual.TYPES`. -/
theorem C92_mjcf_type_fails (m : MjModel) (h : MjSupported m) (fuel : ℕ) (hf : m.bodies.length + m.sites.length ≤ fuel) :
    ∃ f, buildRoot m fuel .default = .ok f ∧ ∀ g ∈ preorder f, ∀ w ∈ g.link.visuals, ∀ P s, ¬ Shows P s w := by
  obtain ⟨f, h1, h2⟩ := C29_mjcf_tree m h fuel hf
  refine ⟨f, h1, fun g hg w hw P s hs => ?_⟩
  rcases h2.visuals g hg with ⟨i, b, hb, e, hv⟩ | ⟨s, hs, e, hv⟩
  · rw [hv] at hw
    obtain ⟨x, _, rfl⟩ := List.mem_map.1 hw
    have := hs.2
    cases s <;> simp [Dims, keptGeom] at this
  · rw [hv] at hw
    cases hw

/-- the example model with two geoms on the torso and one on the leg -/
def exGeoms : MjModel :=
  { exMj 0 true (.fin 0, .fin 1) with
    geoms := [⟨1, 6, ![1, 1, 1], ![0, 0, 0], ⟨1, 0, 0, 0⟩⟩, ⟨2, 2, ![1, 0, 0], ![0, 0, 1], ⟨1, 0, 0, 0⟩⟩,
      ⟨1, 3, ![1, 2, 0], ![0, 1, 0], ⟨0, 1, 0, 0⟩⟩] }

theorem exGeoms_supported : MjSupported exGeoms := by
  have h := exMj_supported 0 true (.fin 0, .fin 1)
  constructor
  all_goals first
    | exact h.world
    | exact h.names
    | (revert h; intro h; cases h; assumption)

/-- the torso shows a box and a capsule -/
example : ∃ f, buildRoot exGeoms 4 .default = .ok f ∧ ∃ g ∈ preorder f, g.name = n!"torso" ∧
    g.link.visuals.map Visual.geomType = [some (.code 6), some (.code 3)] := by
  have hq1 : toH ⟨1, 0, 0, 0⟩ ≠ 0 := fun h => by
    have : (1 : ℝ) = 0 := congrArg (fun q => q.re) h
    exact one_ne_zero this
  have hq2 : toH ⟨0, 1, 0, 0⟩ ≠ 0 := fun h => by
    have : (1 : ℝ) = 0 := congrArg (fun q => q.imI) h
    exact one_ne_zero this
  obtain ⟨f, h1, h2⟩ := C92_mjcf_geoms exGeoms exGeoms_supported (by simp [exGeoms, hq1, hq2]) 4 (by simp [exGeoms, exMj])
  obtain ⟨f', h1', h3⟩ := C29_mjcf_tree exGeoms exGeoms_supported 4 (by simp [exGeoms, exMj])
  rw [h1] at h1'
  cases h1'
  obtain ⟨g, hg, e⟩ := List.mem_map.1 (h3.frames.mem_iff.2 (show n!"torso" ∈ _ by simp [exGeoms, exMj, exBody]))
  refine ⟨f, h1, g, hg, e, ?_⟩
  have := (h2 g hg).1 1 (exBody 1) rfl e
  simp only [exGeoms, List.filter_cons, List.filter_nil] at this
  generalize g.link.visuals = ws at this ⊢
  rcases this with _ | ⟨⟨_, a, _⟩, _ | ⟨⟨_, b, _⟩, _ | _⟩⟩
  simp [a, b]

end Mjcf
end PK
