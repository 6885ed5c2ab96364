import Verif.Lemmas.Loader
import Verif.Props.Fk
import Verif.Props.Quaternion
import Verif.Props.Transform3d
import Verif.Props.Urdf
import Verif.Spec.Mjcf

/-!
# Properties of the MJCF loader: C29
-/

namespace PK
open Spec Matrix
namespace Mjcf

/-! ## conversion of one element -/

theorem quat_ne {q : Quat} (h : toH q ≠ 0) : q ≠ ⟨0, 0, 0, 0⟩ := by
  rintro rfl; exact h rfl

theorem quaternionToMatrix_eq_quatRot {q : Quat} (h : toH q ≠ 0) : quaternionToMatrix q = quatRot q := by
  ext i j
  have := C35_quaternion_to_matrix_is_conjugation q (quat_ne h) (Pi.single j 1)
  simp only [quatRot, Matrix.of_apply, ← this]
  fin_cases i <;> simp [pureH, Matrix.mulVec_single_one]

theorem poseMatrix_ok (p : V3) (q : Quat) : poseMatrix p q = .ok (mkHom (quaternionToMatrix q) p) := by
  simp only [poseMatrix]
  rw [T3_init_pos_rot p _ (.quat q) rfl, ok_bind]
  rfl

theorem poseMatrix_eq {p : V3} {q : Quat} (h : toH q ≠ 0) : mkHom (quaternionToMatrix q) p = quatPose p q := by
  rw [quaternionToMatrix_eq_quatRot h, quatPose]

theorem quatPose_rigid {p : V3} {q : Quat} (h : toH q ≠ 0) : IsRigid (quatPose p q) := by
  rw [← poseMatrix_eq h]
  exact isRigid_mkHom (C35_quaternion_to_matrix_is_rotation q (quat_ne h)) p

/-- what the loader makes of a geom -/
noncomputable def keptGeom (g : Geom) : Visual :=
  ⟨some (mkHom (quaternionToMatrix g.quat) g.pos), some (.code g.type), .size g.size⟩

theorem bodyToGeoms_eq (m : MjModel) (id : ℕ) :
    bodyToGeoms m id = .ok ((m.geoms.filter fun g => g.bodyid == id).map keptGeom) :=
  mapM_ok_map _ keptGeom _ fun g _ => by simp only [poseMatrix_ok, ok_bind, pure_ok, keptGeom]

theorem bodyToGeoms_ok (m : MjModel) (id : ℕ) : ∃ v, bodyToGeoms m id = .ok v := ⟨_, bodyToGeoms_eq m id⟩

theorem withPos_one (p : V3) : withPos 1 p = transT p := by
  ext i j
  fin_cases i <;> fin_cases j <;> simp [withPos, transT, mkHom]

theorem T3_init_pos (p : V3) (d : DType) (dev : Device) :
    T3.init (.default 1) (some (.single p)) none d dev = .ok ⟨.plain, [transT p], d, dev, d, dev⟩ := by
  simp only [T3.init, initMatrix, ok_bind, setPos, catLast, repeatTo, List.replicate_one]
  simp only [List.length_singleton, if_true, ok_bind, List.zipWith_cons_cons, List.zipWith_nil_left, withPos_one]
  rfl

theorem bodyJoint_ok {m : MjModel} (h : MjSupported m) {b : Body} (hb : b ∈ m.bodies) :
    ∃ q, bodyJoint m b = .ok q ∧ MjDeclared (bodyJnt m b) q := by
  have h1 := h.jnt_num b hb
  rcases Nat.lt_or_ge 0 b.jntnum with h0 | h0
  · have e : b.jntnum = 1 := by omega
    have hlt := h.jnt_adr b hb e
    have hj : m.joints[b.jntadr] ∈ m.joints := List.getElem_mem hlt
    have hget : m.joints[b.jntadr]? = some m.joints[b.jntadr] := List.getElem?_eq_getElem hlt
    generalize m.joints[b.jntadr] = j at hj hget
    have hax := axis_scaled j.axis (h.jnt_axis j hj)
    have hn : normalizeAxis j.axis = (1 / vlen j.axis) • j.axis := by
      funext i; simp [normalizeAxis, div_eq_inv_mul, vlen, norm3, dot, pow_two]
    have hB : bodyJnt m b = some j := by simp [bodyJnt, e, hget]
    rw [hB]
    rcases h.jnt_kind j hj with ht | ht
    · refine ⟨Joint.init (some j.name) (some (transT j.pos)) .revolute (some j.axis) (some j.range), ?_, rfl, rfl, rfl, hax.1, ?_⟩
      · simp only [bodyJoint, e, hget, T3_init_pos, ok_bind, ht, jointTypeMap]; rfl
      · intro x
        simp only [motion, mjMotion, ht, Joint.init, hn]
    · refine ⟨Joint.init (some j.name) (some (transT j.pos)) .prismatic (some j.axis) (some j.range), ?_, rfl, rfl, rfl, hax.1, ?_⟩
      · simp only [bodyJoint, e, hget, T3_init_pos, ok_bind, ht, jointTypeMap]; rfl
      · intro x
        simp only [motion, mjMotion, ht, Joint.init, hn]
  · have e : b.jntnum = 0 := by omega
    refine ⟨Joint.init (some (b.name ++ n!"_fixed_joint")), by simp [bodyJoint, e, pure_ok], ?_⟩
    have hB : bodyJnt m b = none := by simp [bodyJnt, e]
    rw [hB]
    exact ⟨rfl, rfl⟩

/-! ## the tree -/

/-- a body other than the world, or a site -/
abbrev Node := (Body × ℕ) ⊕ Site

/-- name of body number `i` -/
def bname (m : MjModel) (i : ℕ) : Name := (m.bodies[i]?.map Body.name).getD []

/-- name of the body above -/
def npar (m : MjModel) : Node → Name
  | .inl p => bname m p.1.parentid
  | .inr s => bname m s.bodyid

/-- own name -/
def nchi : Node → Name
  | .inl p => p.1.name
  | .inr s => s.name

/-- bodies in order, then sites -/
def nodes (m : MjModel) : List Node := (m.bodies.zipIdx.drop 1).map .inl ++ m.sites.map .inr

theorem bname_inj {m : MjModel} (h : MjSupported m) {i k : ℕ} (hi : i < m.bodies.length) (hk : k < m.bodies.length)
    (e : bname m i = bname m k) : i = k := by
  have hn := (List.nodup_append.1 h.names).1
  simp only [bname, List.getElem?_eq_getElem hi, List.getElem?_eq_getElem hk, Option.map_some, Option.getD_some] at e
  have := (List.Nodup.getElem_inj_iff hn (i := i) (j := k) (hi := by simpa using hi) (hj := by simpa using hk)).1 (by simpa using e)
  exact this

theorem mem_drop_zipIdx {α : Type} {l : List α} {p : α × ℕ} : p ∈ l.zipIdx.drop 1 ↔ l[p.2]? = some p.1 ∧ 0 < p.2 := by
  cases l with
  | nil => simp
  | cons a l =>
    simp only [List.zipIdx_cons, List.drop_succ_cons, List.drop_zero, Nat.zero_add]
    rw [List.mem_zipIdx_iff_le_and_getElem?_sub]
    constructor
    · rintro ⟨h1, h2⟩
      obtain ⟨x, k⟩ := p
      obtain ⟨k, rfl⟩ : ∃ k', k = k' + 1 := ⟨k - 1, by simp only at h1; omega⟩
      exact ⟨by simpa using h2, by simp⟩
    · rintro ⟨h1, h2⟩
      obtain ⟨x, k⟩ := p
      obtain ⟨k, rfl⟩ : ∃ k', k = k' + 1 := ⟨k - 1, by simp only at h2; omega⟩
      exact ⟨by simp, by simpa using h1⟩

theorem mj_tree {m : MjModel} (h : MjSupported m) :
    IsTree (m.bodies.map Body.name ++ m.sites.map Site.name) (npar m) nchi (nodes m) (bname m 0) := by
  have h0 : 0 < m.bodies.length := List.length_pos_iff.2 h.world
  have bmem : ∀ i, i < m.bodies.length → bname m i ∈ m.bodies.map Body.name := by
    intro i hi
    simp only [bname, List.getElem?_eq_getElem hi, Option.map_some, Option.getD_some]
    exact List.mem_map_of_mem (List.getElem_mem hi)
  have lt_of : ∀ {i : ℕ} {b : Body}, m.bodies[i]? = some b → i < m.bodies.length := by
    intro i b e
    exact (List.getElem?_eq_some_iff.1 e).1
  have bn : ∀ {i : ℕ} {b : Body}, m.bodies[i]? = some b → bname m i = b.name := by
    intro i b e; simp [bname, e]
  have hnod : ∀ n ∈ nodes m, (∃ p : Body × ℕ, n = .inl p ∧ m.bodies[p.2]? = some p.1 ∧ 0 < p.2) ∨
      ∃ s ∈ m.sites, n = .inr s := by
    intro n hn
    rcases List.mem_append.1 hn with hn | hn
    · obtain ⟨p, hp, rfl⟩ := List.mem_map.1 hn
      exact Or.inl ⟨p, rfl, mem_drop_zipIdx.1 hp⟩
    · obtain ⟨s, hs, rfl⟩ := List.mem_map.1 hn
      exact Or.inr ⟨s, hs, rfl⟩
  have hmap : (nodes m).map nchi = (m.bodies.map Body.name).tail ++ m.sites.map Site.name := by
    unfold nodes
    rw [List.map_append, List.map_map, List.map_map]
    congr 1
    cases m.bodies with
    | nil => rfl
    | cons a l =>
      simp only [List.zipIdx_cons, List.drop_succ_cons, List.drop_zero, List.map_cons, List.tail_cons]
      have : (nchi ∘ Sum.inl : Body × ℕ → Name) = Body.name ∘ Prod.fst := rfl
      rw [this, ← List.map_map, List.zipIdx_map_fst]
  refine ⟨h.names, List.mem_append_left _ (bmem 0 h0), ?_, ?_, ?_, ?_, ?_⟩
  · intro n hn
    rcases hnod n hn with ⟨p, rfl, e, _⟩ | ⟨s, hs, rfl⟩
    · exact List.mem_append_left _ (List.mem_map_of_mem (List.mem_of_getElem? e))
    · exact List.mem_append_right _ (List.mem_map_of_mem hs)
  · intro n hn
    rcases hnod n hn with ⟨p, rfl, e, hp⟩ | ⟨s, hs, rfl⟩
    · refine List.mem_append_left _ (bmem _ ?_)
      have := h.parent_lt _ _ e hp
      have := lt_of e
      omega
    · exact List.mem_append_left _ (bmem _ (h.site_body s hs))
  · rw [hmap]
    exact h.names.sublist ((List.tail_sublist _).append_right _)
  · intro n hn e
    rcases hnod n hn with ⟨p, rfl, e', hp⟩ | ⟨s, hs, rfl⟩
    · have : bname m p.2 = bname m 0 := (bn e').trans e
      have := bname_inj h (lt_of e') h0 this
      omega
    · have := (List.nodup_append.1 h.names).2.2 _ (bmem 0 h0) _ (List.mem_map_of_mem (f := Site.name) hs)
      exact this e.symm
  · have key : ∀ i, i < m.bodies.length → ∃ k, Reach (npar m) nchi (nodes m) (bname m 0) k (bname m i) := by
      intro i
      induction i using Nat.strong_induction_on with
      | _ i ih =>
        intro hi
        rcases Nat.eq_zero_or_pos i with rfl | hpos
        · exact ⟨0, .here⟩
        · have e : m.bodies[i]? = some m.bodies[i] := List.getElem?_eq_getElem hi
          have hlt := h.parent_lt _ _ e hpos
          obtain ⟨k, hk⟩ := ih _ hlt (by omega)
          refine ⟨k + 1, ?_⟩
          rw [bn e]
          exact Reach.step (par := npar m) (chi := nchi) k (.inl (m.bodies[i], i))
            (List.mem_append_left _ (List.mem_map_of_mem (mem_drop_zipIdx.2 ⟨e, hpos⟩))) hk
    intro l hl
    rcases List.mem_append.1 hl with hl | hl
    · obtain ⟨b, hb, rfl⟩ := List.mem_map.1 hl
      obtain ⟨i, hi, rfl⟩ := List.mem_iff_getElem.1 hb
      obtain ⟨k, hk⟩ := key i hi
      exact ⟨k, by rwa [bn (List.getElem?_eq_getElem hi)] at hk⟩
    · obtain ⟨s, hs, rfl⟩ := List.mem_map.1 hl
      obtain ⟨k, hk⟩ := key _ (h.site_body s hs)
      exact ⟨k + 1, Reach.step (par := npar m) (chi := nchi) k (.inr s)
        (List.mem_append_right _ (List.mem_map_of_mem hs)) hk⟩

theorem mem_kids {m : MjModel} (h : MjSupported m) (id : ℕ) :
    m.bodies.zipIdx.filter (fun p => p.1.parentid == id && p.2 != id) =
      (m.bodies.zipIdx.drop 1).filter fun p => p.1.parentid == id := by
  have key : ∀ p ∈ m.bodies.zipIdx.drop 1, (p.1.parentid == id && p.2 != id) = (p.1.parentid == id) := by
    intro p hp
    obtain ⟨e, hp⟩ := mem_drop_zipIdx.1 hp
    have := h.parent_lt _ _ e hp
    by_cases hq : p.1.parentid = id
    · have : p.2 ≠ id := by omega
      simp [hq, this]
    · simp [hq]
  rw [← List.filter_congr key]
  have hw := h.world_parent
  cases hb : m.bodies with
  | nil => rfl
  | cons a l =>
    rw [hb] at hw
    have := hw a (by simp)
    simp only [List.zipIdx_cons, List.drop_succ_cons, List.drop_zero, List.filter_cons, this]
    by_cases e : id = 0
    · simp [e]
    · have : ¬ (0 : ℕ) = id := fun h => e h.symm
      simp [this]

theorem filter_nodes {m : MjModel} (h : MjSupported m) {id : ℕ} (hid : id < m.bodies.length) :
    (nodes m).filter (fun n => decide (npar m n = bname m id)) =
      ((m.bodies.zipIdx.drop 1).filter fun p => p.1.parentid == id).map Sum.inl ++
      (m.sites.filter fun s => s.bodyid == id).map Sum.inr := by
  unfold nodes
  rw [List.filter_append, List.filter_map, List.filter_map]
  congr 2
  · refine List.filter_congr fun p hp => ?_
    obtain ⟨e, hp⟩ := mem_drop_zipIdx.1 hp
    have h1 := h.parent_lt _ _ e hp
    have h2 := (List.getElem?_eq_some_iff.1 e).1
    simp only [Function.comp, npar]
    by_cases hq : p.1.parentid = id
    · simp [hq]
    · have : bname m p.1.parentid ≠ bname m id := fun e => hq (bname_inj h (by omega) hid e)
      simp [hq, this]
  · refine List.filter_congr fun s hs => ?_
    have h1 := h.site_body s hs
    simp only [Function.comp, npar]
    by_cases hq : s.bodyid = id
    · simp [hq]
    · have : bname m s.bodyid ≠ bname m id := fun e => hq (bname_inj h h1 hid e)
      simp [hq, this]

theorem pureBuild_site {m : MjModel} (h : MjSupported m) (mk : Node → Joint × Link) (fuel : ℕ) (s : Site) (hs : s ∈ m.sites) :
    pureBuild (npar m) nchi mk (nodes m) fuel s.name = [] := by
  cases fuel with
  | zero => rfl
  | succ fuel =>
    rw [pureBuild, List.filter_eq_nil_iff.2]; · rfl
    intro n hn
    simp only [decide_eq_true_eq]
    intro e
    have hd := (List.nodup_append.1 h.names).2.2
    have hp : npar m n ∈ m.bodies.map Body.name := by
      have aux : ∀ i, i < m.bodies.length → bname m i ∈ m.bodies.map Body.name := by
        intro i hi
        simp only [bname, List.getElem?_eq_getElem hi, Option.map_some, Option.getD_some]
        exact List.mem_map_of_mem (List.getElem_mem hi)
      rcases List.mem_append.1 hn with hn | hn
      · obtain ⟨p, hp, rfl⟩ := List.mem_map.1 hn
        obtain ⟨e, hp⟩ := mem_drop_zipIdx.1 hp
        have h1 := h.parent_lt _ _ e hp
        have h2 := (List.getElem?_eq_some_iff.1 e).1
        exact aux _ (by omega)
      · obtain ⟨s, hs, rfl⟩ := List.mem_map.1 hn
        exact aux _ (h.site_body s hs)
    exact hd _ hp _ (List.mem_map_of_mem hs) e

theorem buildRecurse_ok' {m : MjModel} (h : MjSupported m) (vis : ℕ → List Visual) (hvis : ∀ i, bodyToGeoms m i = .ok (vis i))
    (q : Body → Joint) (hq : ∀ b ∈ m.bodies, bodyJoint m b = .ok (q b)) (mk : Node → Joint × Link)
    (hmk1 : ∀ p, mk (.inl p) = (q p.1, ⟨some p.1.name, some (mkHom (quaternionToMatrix p.1.quat) p.1.pos), vis p.2⟩))
    (hmk2 : ∀ s, mk (.inr s) = (Joint.init, ⟨some s.name, some (mkHom (quaternionToMatrix s.quat) s.pos), []⟩))
    (fuel : ℕ) : ∀ id, id < m.bodies.length → m.bodies.length ≤ fuel + id →
      buildRecurse m fuel id = .ok (vis id, pureBuild (npar m) nchi mk (nodes m) fuel (bname m id)) := by
  induction fuel with
  | zero => intro id h1 h2; omega
  | succ fuel ih =>
    intro id h1 h2
    rw [buildRecurse, pureBuild, hvis, ok_bind, mem_kids h, filter_nodes h h1]
    rw [mapM_ok_map _ (fun p => Frame.mk p.1.name (mk (.inl p)).2 (mk (.inl p)).1
      (pureBuild (npar m) nchi mk (nodes m) fuel p.1.name))]
    · have : siteFrames m id = .ok ((m.sites.filter fun s => s.bodyid == id).map fun s =>
          Frame.mk s.name (mk (.inr s)).2 (mk (.inr s)).1 (pureBuild (npar m) nchi mk (nodes m) fuel s.name)) := by
        refine mapM_ok_map _ _ _ fun s hs => ?_
        rw [pureBuild_site h mk fuel s (List.mem_filter.1 hs).1, poseMatrix_ok, ok_bind, hmk2]
        rfl
      rw [ok_bind, this, ok_bind, List.map_append, List.map_map, List.map_map]
      rfl
    · intro p hp
      obtain ⟨hp, e⟩ := List.mem_filter.1 hp
      have e : p.1.parentid = id := by simpa using e
      obtain ⟨hg, hpos⟩ := mem_drop_zipIdx.1 hp
      have hlt := h.parent_lt _ _ hg hpos
      have hn : bname m p.2 = p.1.name := by simp [bname, hg]
      rw [hq p.1 (List.mem_of_getElem? hg), ok_bind, poseMatrix_ok, ok_bind,
        ih p.2 (List.getElem?_eq_some_iff.1 hg).1 (by omega), ok_bind, hn, hmk1]
      rfl

/-- a node as the specification's edge -/
def nedge (m : MjModel) (n : Node) : MjEdge :=
  ⟨npar m n, nchi n, match n with | .inl p => bodyJnt m p.1 | .inr _ => none⟩

theorem mjEdges_eq (m : MjModel) : mjEdges m = (nodes m).map (nedge m) := by
  unfold mjEdges nodes
  rw [List.map_append, List.map_map, List.map_map]
  congr 1
  have : m.bodies.drop 1 = (m.bodies.zipIdx.drop 1).map Prod.fst := by
    rw [List.map_drop, List.zipIdx_map_fst]
  rw [this, List.map_map]
  rfl

/-- What loading a compiled model means: one frame per body and per site, at the declared places. -/
structure Loaded (m : MjModel) (f : Frame) : Prop where
  /-- the root frame is the world body -/
  root : ∃ b, m.bodies[0]? = some b ∧ f.name = b.name ∧ f.link.offset = some (quatPose b.pos b.quat) ∧
    f.joint.jtype = .fixed ∧ f.joint.offset = none
  /-- a body carries its geoms, a site nothing -/
  visuals : ∀ g ∈ preorder f, (∃ i b, m.bodies[i]? = some b ∧ g.name = b.name ∧
      g.link.visuals = (m.geoms.filter fun x => x.bodyid == i).map keptGeom) ∨
    ∃ s ∈ m.sites, g.name = s.name ∧ g.link.visuals = []
  /-- exactly one frame per body and site -/
  frames : ((preorder f).map Frame.name).Perm (m.bodies.map Body.name ++ m.sites.map Site.name)
  /-- the children of a frame are the child bodies in order, then the sites in order -/
  children : ∀ g ∈ preorder f,
    g.children.map Frame.name = ((mjEdges m).filter fun e => decide (e.parent = g.name)).map MjEdge.child
  /-- every other body is below its parent, with its pose and joint -/
  bodies : ∀ i b, m.bodies[i]? = some b → 0 < i → ∃ p ∈ preorder f, ∃ g ∈ p.children,
    (m.bodies[b.parentid]?.map Body.name) = some p.name ∧ g.name = b.name ∧
    g.link.offset = some (quatPose b.pos b.quat) ∧ MjDeclared (bodyJnt m b) g.joint
  /-- every site is below its body, fixed at its pose -/
  sites : ∀ s ∈ m.sites, ∃ p ∈ preorder f, ∃ g ∈ p.children,
    (m.bodies[s.bodyid]?.map Body.name) = some p.name ∧ g.name = s.name ∧
    g.link.offset = some (quatPose s.pos s.quat) ∧ g.joint.jtype = .fixed ∧ g.joint.offset = none
  /-- nothing else -/
  only : ∀ g ∈ preorder f, g = f ∨
    (∃ i b, m.bodies[i]? = some b ∧ 0 < i ∧ g.name = b.name ∧ g.link.offset = some (quatPose b.pos b.quat) ∧
      MjDeclared (bodyJnt m b) g.joint) ∨
    ∃ s ∈ m.sites, g.name = s.name ∧ g.link.offset = some (quatPose s.pos s.quat) ∧ g.joint.jtype = .fixed ∧ g.joint.offset = none

/-- C29: every supported model loads, to one frame per body and site with the declared poses and joints. -/
theorem C29_mjcf_tree (m : MjModel) (h : MjSupported m) (fuel : ℕ) (hf : m.bodies.length + m.sites.length ≤ fuel) :
    ∃ f, buildRoot m fuel .default = .ok f ∧ Loaded m f := by
  obtain ⟨vis, hv⟩ : ∃ vis : ℕ → List Visual, ∀ i, vis i = (m.geoms.filter fun x => x.bodyid == i).map keptGeom :=
    ⟨_, fun _ => rfl⟩
  have hvis : ∀ i, bodyToGeoms m i = .ok (vis i) := fun i => by rw [hv, bodyToGeoms_eq]
  have hc : ∀ b : Body, ∃ q, b ∈ m.bodies → bodyJoint m b = .ok q ∧ MjDeclared (bodyJnt m b) q := by
    intro b
    by_cases hb : b ∈ m.bodies
    · obtain ⟨q, hq⟩ := bodyJoint_ok h hb
      exact ⟨q, fun _ => hq⟩
    · exact ⟨Joint.init, fun h => absurd h hb⟩
  choose q hq using hc
  let mk : Node → Joint × Link := fun
    | .inl p => (q p.1, ⟨some p.1.name, some (mkHom (quaternionToMatrix p.1.quat) p.1.pos), vis p.2⟩)
    | .inr s => (Joint.init, ⟨some s.name, some (mkHom (quaternionToMatrix s.quat) s.pos), []⟩)
  have h0 : 0 < m.bodies.length := List.length_pos_iff.2 h.world
  have hb0 : m.bodies[0]? = some m.bodies[0] := List.getElem?_eq_getElem h0
  have hm0 : m.bodies[0] ∈ m.bodies := List.getElem_mem h0
  generalize m.bodies[0] = b0 at hb0 hm0
  have hrec := buildRecurse_ok' h vis hvis q (fun b hb => (hq b hb).1) mk (fun _ => rfl) (fun _ => rfl) fuel 0 h0 (by omega)
  have hn0 : bname m 0 = b0.name := by simp [bname, hb0]
  rw [hn0] at hrec
  have htree := mj_tree h
  rw [hn0] at htree
  obtain ⟨h1, h2, h3, h4⟩ := pureBuild_tree htree mk fuel (by simpa using hf)
    ⟨some b0.name, some (mkHom (quaternionToMatrix b0.quat) b0.pos), vis 0⟩ Joint.init _ rfl
  refine ⟨_, ?_, ⟨b0, hb0, rfl, ?_, rfl, rfl⟩, ?_, h1, ?_, ?_, ?_, ?_⟩
  · simp only [buildRoot, findBody, hb0, ok_bind, poseMatrix_ok, hrec]
    rfl
  · simp only [Frame.link, poseMatrix_eq (h.quat_body b0 hm0)]
  · intro g hg
    rcases h4 g hg with rfl | ⟨n, hn, e1, e2, e3⟩
    · exact Or.inl ⟨0, b0, hb0, rfl, hv 0⟩
    · rcases List.mem_append.1 hn with hn | hn
      · obtain ⟨p, hp, rfl⟩ := List.mem_map.1 hn
        obtain ⟨e, hp⟩ := mem_drop_zipIdx.1 hp
        exact Or.inl ⟨p.2, p.1, e, e1, by rw [e3]; exact hv p.2⟩
      · obtain ⟨s, hs, rfl⟩ := List.mem_map.1 hn
        exact Or.inr ⟨s, hs, e1, by rw [e3]⟩
  · intro g hg
    rw [h2 g hg, mjEdges_eq, List.filter_map, List.map_map]
    rfl
  · intro i b e hi
    obtain ⟨p, hp, g, hg, e1, e2, e3, e4⟩ := h3 (.inl (b, i))
      (List.mem_append_left _ (List.mem_map_of_mem (mem_drop_zipIdx.2 ⟨e, hi⟩)))
    have hb := List.mem_of_getElem? e
    refine ⟨p, hp, g, hg, ?_, e2, ?_, ?_⟩
    · have := h.parent_lt _ _ e hi
      have := (List.getElem?_eq_some_iff.1 e).1
      have hlt : b.parentid < m.bodies.length := by omega
      rw [e1]
      simp [npar, bname, List.getElem?_eq_getElem hlt]
    · rw [e4, ← poseMatrix_eq (h.quat_body b hb)]
    · rw [e3]; exact (hq b hb).2
  · intro s hs
    obtain ⟨p, hp, g, hg, e1, e2, e3, e4⟩ := h3 (.inr s) (List.mem_append_right _ (List.mem_map_of_mem hs))
    refine ⟨p, hp, g, hg, ?_, e2, ?_, ?_⟩
    · rw [e1]
      simp [npar, bname, List.getElem?_eq_getElem (h.site_body s hs)]
    · rw [e4, ← poseMatrix_eq (h.quat_site s hs)]
    · rw [e3]; exact ⟨rfl, rfl⟩
  · intro g hg
    rcases h4 g hg with rfl | ⟨n, hn, e1, e2, e3⟩
    · exact Or.inl rfl
    · rcases List.mem_append.1 hn with hn | hn
      · obtain ⟨p, hp, rfl⟩ := List.mem_map.1 hn
        obtain ⟨e, hp⟩ := mem_drop_zipIdx.1 hp
        have hb := List.mem_of_getElem? e
        refine Or.inr (Or.inl ⟨p.2, p.1, e, hp, e1, ?_, ?_⟩)
        · rw [e3, ← poseMatrix_eq (h.quat_body _ hb)]
        · rw [e2]; exact (hq _ hb).2
      · obtain ⟨s, hs, rfl⟩ := List.mem_map.1 hn
        refine Or.inr (Or.inr ⟨s, hs, e1, ?_, ?_⟩)
        · rw [e3, ← poseMatrix_eq (h.quat_site _ hs)]
        · rw [e2]; exact ⟨rfl, rfl⟩

theorem loaded_names {m : MjModel} {f : Frame} (h : MjSupported m) (hl : Loaded m f) :
    ((preorder f).map Frame.name).Nodup := hl.frames.nodup_iff.2 h.names

/-- C29: the loaded tree satisfies the hypotheses of the forward kinematics theorems. -/
theorem C29_usable (m : MjModel) (f : Frame) (h : MjSupported m) (hl : Loaded m f) : WF f ∧ RigidTree f := by
  have hnames := loaded_names h hl
  have hmov : ∀ g ∈ preorder f, Moving g.joint → ∃ (i : ℕ) (b : Body) (j : MJoint), m.bodies[i]? = some b ∧ g.name = b.name ∧
      b.jntnum = 1 ∧ m.joints[b.jntadr]? = some j ∧ g.joint.name = some j.name ∧ IsUnitV g.joint.axis := by
    intro g hg hm
    rcases hl.only g hg with rfl | ⟨i, b, e, _, e2, _, d⟩ | ⟨s, _, _, _, e, _⟩
    · obtain ⟨_, _, _, _, e, _⟩ := hl.root
      exact absurd e hm
    · cases hB : bodyJnt m b with
      | none => rw [hB] at d; exact absurd d.1 hm
      | some j =>
        rw [hB] at d
        have hn : b.jntnum ≠ 0 := by
          intro h0; simp [bodyJnt, h0] at hB
        have h1 : b.jntnum = 1 := by
          have := h.jnt_num b (List.mem_of_getElem? e)
          omega
        refine ⟨i, b, j, e, e2, h1, ?_, d.1, d.2.2.2.1⟩
        simpa [bodyJnt, h1] using hB
    · exact absurd e hm
  refine ⟨⟨hnames, ?_, ?_⟩, ⟨?_, ?_, ?_⟩⟩
  · intro g hg
    exact h.newline _ (hl.frames.subset (List.mem_map_of_mem hg))
  · have : movingJoints f = ((preorder f).filter fun g => decide (Moving g.joint)).map Frame.joint := by
      unfold movingJoints; rw [List.filter_map]; rfl
    rw [this, List.map_map]
    refine List.Nodup.map_on ?_ ((List.Nodup.of_map _ hnames).filter _)
    intro a ha b hb e
    obtain ⟨ha, ma⟩ := List.mem_filter.1 ha
    obtain ⟨hb, mb⟩ := List.mem_filter.1 hb
    obtain ⟨i, ba, ja, a1, a2, a3, a4, a5, _⟩ := hmov a ha (by simpa using ma)
    obtain ⟨k, bb, jb, b1, b2, b3, b4, b5, _⟩ := hmov b hb (by simpa using mb)
    have e : a.joint.name = b.joint.name := e
    rw [a5, b5] at e
    have hj : ja = jb := List.inj_on_of_nodup_map h.jnt_names (List.mem_of_getElem? a4) (List.mem_of_getElem? b4) (Option.some.inj e)
    have hadr : ba.jntadr = bb.jntadr := by
      rw [← hj] at b4
      obtain ⟨l1, e1⟩ := List.getElem?_eq_some_iff.1 a4
      obtain ⟨l2, e2⟩ := List.getElem?_eq_some_iff.1 b4
      exact (List.Nodup.getElem_inj_iff (List.Nodup.of_map _ h.jnt_names)).1 (e1.trans e2.symm)
    have := h.jnt_own i k ba bb a1 b1 a3 b3 hadr
    subst this
    have : ba = bb := Option.some.inj (a1.symm.trans b1)
    exact List.inj_on_of_nodup_map hnames ha hb (by rw [a2, b2, this])
  · intro g hg o ho
    have key : ∃ (p : V3) (q : Quat), toH q ≠ 0 ∧ g.link.offset = some (quatPose p q) := by
      rcases hl.only g hg with rfl | ⟨i, b, e, _, _, e2, _⟩ | ⟨s, hs, _, e, _⟩
      · obtain ⟨b, e, _, e2, _⟩ := hl.root
        exact ⟨_, _, h.quat_body b (List.mem_of_getElem? e), e2⟩
      · exact ⟨_, _, h.quat_body b (List.mem_of_getElem? e), e2⟩
      · exact ⟨_, _, h.quat_site s hs, e⟩
    obtain ⟨p, q, hq, e⟩ := key
    rw [e] at ho; cases ho; exact quatPose_rigid hq
  · intro g hg o ho
    rcases hl.only g hg with rfl | ⟨i, b, e, _, _, _, d⟩ | ⟨s, hs, _, _, _, e⟩
    · obtain ⟨_, _, _, _, _, e⟩ := hl.root
      rw [e] at ho; cases ho
    · cases hB : bodyJnt m b with
      | none => rw [hB] at d; rw [d.2] at ho; cases ho
      | some j =>
        rw [hB] at d; rw [d.2.1] at ho; cases ho
        exact isRigid_mkHom isRot_one _
    · rw [e] at ho; cases ho
  · intro g hg hm
    obtain ⟨_, _, _, _, _, _, _, _, hu⟩ := hmov g hg hm
    exact hu

/-- the value the joint called `n` has in batch element `k` of the joint tensor -/
noncomputable def named (f : Frame) {B : ℕ} (th : List (Fin B → ℝ)) (k : Fin B) (n : Name) : ℝ :=
  th.getD ((Chain.init f).getJointParameterNames.idxOf (some n)) (fun _ => 0) k

theorem colVal_named (f : Frame) {B : ℕ} (th : List (Fin B → ℝ)) (k : Fin B) (q : Joint) (n : Name) (h : q.name = some n) :
    colVal f th k q = named f th k n := by
  have e : (Chain.init f).getJointParameterNames = (movingJoints f).map Joint.name := jointParamNames_eq f
  rw [named, e, ← h]; rfl

theorem mjPlaced_unique {m : MjModel} {val : Name → ℝ} {i : ℕ} {S T : M4} (h1 : MjPlaced m val i S) (h2 : MjPlaced m val i T) :
    S = T := by
  induction h1 generalizing T with
  | world b e =>
    cases h2 with
    | world b' e' => rw [e] at e'; cases e'; rfl
    | child _ _ _ _ h0 _ => exact absurd h0 (by simp)
  | child i b S e h0 _ ih =>
    cases h2 with
    | world => exact absurd h0 (by simp)
    | child _ b' T e' _ h2 => rw [e] at e'; cases e'; rw [ih h2]

theorem mjPlaced_exists {m : MjModel} (h : MjSupported m) (val : Name → ℝ) (i : ℕ) (hi : i < m.bodies.length) :
    ∃ T, MjPlaced m val i T := by
  induction i using Nat.strong_induction_on with
  | _ i ih =>
    have e : m.bodies[i]? = some m.bodies[i] := List.getElem?_eq_getElem hi
    rcases Nat.eq_zero_or_pos i with rfl | h0
    · exact ⟨_, .world _ e⟩
    · have hlt := h.parent_lt _ _ e h0
      obtain ⟨T, hT⟩ := ih _ hlt (by omega)
      exact ⟨_, .child i _ T e h0 hT⟩

/-- at value 0 a joint leaves its body at the declared pose -/
theorem mjLocal_zero (m : MjModel) (b : Body) : mjLocal m (fun _ => 0) b = quatPose b.pos b.quat := by
  unfold mjLocal
  split
  · rw [Matrix.mul_one]
  · next j _ =>
    have : mjMotion j 0 = 1 := by
      unfold mjMotion
      split
      · rw [← axisAndAngleToMatrix33_eq_rotAbout, axisAndAngle_zero, mkHom_one]
      · rw [zero_smul, mkHom_one]
      · rfl
    rw [this, Matrix.mul_one, transT, transT, mkHom_mul, Matrix.mul_one, Matrix.one_mulVec, neg_add_cancel, mkHom_one,
      Matrix.mul_one]

/-- C29 (part): when joint anchors are at the body origins, forward kinematics reports every body at its
world pose (MuJoCo's, for every configuration; at zero this is the product of the body poses,
`mjLocal_zero`) and every site at its place on its body.  Missing from the full statement: joints with an
anchor elsewhere, where it is false, see `C29_fails`. -/
theorem C29_pose_partial (m : MjModel) (f : Frame) (h : MjSupported m) (hl : Loaded m f)
    (ha : ∀ b ∈ m.bodies, ∀ j, bodyJnt m b = some j → j.pos = 0) {B : ℕ} (th : List (Fin B → ℝ))
    (hth : th.length = (movingJoints f).length) :
    ∃ d, (Chain.init f).forwardKinematics th = .ok d ∧
      (∀ i b, m.bodies[i]? = some b → ∃ T, d.get? b.name = some T ∧ ∀ k, MjPlaced m (named f th k) i (T k)) ∧
      ∀ s ∈ m.sites, ∃ T, d.get? s.name = some T ∧ ∀ k, ∃ W, MjPlaced m (named f th k) s.bodyid W ∧
        T k = W * quatPose s.pos s.quat := by
  obtain ⟨hw, -⟩ := C29_usable m f h hl
  have hnames := loaded_names h hl
  obtain ⟨d, h1, -, h3⟩ := C01_fk_is_path_product f hw th hth
  have key : ∀ i b, m.bodies[i]? = some b → ∃ p g, IsPath f p ∧ p.getLast? = some g ∧ g ∈ preorder f ∧ g.name = b.name ∧
      ∀ k, MjPlaced m (named f th k) i (pathT (colVal f th k) p) := by
    intro i
    induction i using Nat.strong_induction_on with
    | _ i ih =>
      intro b e
      rcases Nat.eq_zero_or_pos i with rfl | h0
      · obtain ⟨b0, e0, e1, e2, e3, e4⟩ := hl.root
        rw [e] at e0; cases e0
        refine ⟨[f], f, .single, rfl, preorder_root_mem f, e1, fun k => ?_⟩
        have : pathT (colVal f th k) [f] = quatPose b.pos b.quat := by
          rw [pathT, List.map_singleton, List.prod_singleton, localT, e2, e4]
          simp [motion, e3]
        rw [this]
        exact .world b e
      · have hlt := h.parent_lt _ _ e h0
        have hi := (List.getElem?_eq_some_iff.1 e).1
        obtain ⟨pb, hp⟩ : ∃ pb, m.bodies[b.parentid]? = some pb := ⟨_, List.getElem?_eq_getElem (by omega)⟩
        obtain ⟨p, q, hp1, hp2, hp3, hp4, hp5⟩ := ih _ hlt _ hp
        obtain ⟨p0, g0, g, hg, n1, n2, n3, n4⟩ := hl.bodies i b e h0
        rw [hp, Option.map_some, Option.some.injEq] at n1
        have hq : p0 = q := List.inj_on_of_nodup_map hnames g0 hp3 (by rw [hp4, n1])
        subst hq
        obtain ⟨p', rfl⟩ := List.getLast?_eq_some_iff.1 hp2
        refine ⟨p' ++ [p0] ++ [g], g, .snoc p' p0 g hp1 hg, by simp, preorder_children g0 hg, n2, fun k => ?_⟩
        have : pathT (colVal f th k) (p' ++ [p0] ++ [g]) = pathT (colVal f th k) (p' ++ [p0]) * mjLocal m (named f th k) b := by
          rw [pathT, List.map_append, List.prod_append]
          congr 1
          rw [List.map_singleton, List.prod_singleton, localT, n3, mjLocal, Option.getD_some, Matrix.mul_assoc]
          congr 1
          cases hB : bodyJnt m b with
          | none =>
            rw [hB] at n4
            simp [n4.2, motion, n4.1]
          | some j =>
            rw [hB] at n4
            obtain ⟨d1, d2, d3, d4, d5⟩ := n4
            rw [d2, Option.getD_some, colVal_named f th k g.joint j.name d1, d5]
            simp [ha b (List.mem_of_getElem? e) j hB, transT, mkHom_one]
        rw [this]
        exact .child i b _ e h0 (hp5 k)
  refine ⟨d, h1, ?_, ?_⟩
  · intro i b e
    obtain ⟨p, g, p1, p2, p3, p4, p5⟩ := key i b e
    obtain ⟨T, t1, t2⟩ := h3 p g p1 p2
    exact ⟨T, p4 ▸ t1, fun k => by rw [t2]; exact p5 k⟩
  · intro s hs
    obtain ⟨p0, g0, g, hg, n1, n2, n3, n4, n5⟩ := hl.sites s hs
    obtain ⟨pb, hp⟩ : ∃ pb, m.bodies[s.bodyid]? = some pb := ⟨_, List.getElem?_eq_getElem (h.site_body s hs)⟩
    obtain ⟨p, q, hp1, hp2, hp3, hp4, hp5⟩ := key _ _ hp
    rw [hp, Option.map_some, Option.some.injEq] at n1
    have hq : p0 = q := List.inj_on_of_nodup_map hnames g0 hp3 (by rw [hp4, n1])
    subst hq
    obtain ⟨p', rfl⟩ := List.getLast?_eq_some_iff.1 hp2
    obtain ⟨T, t1, t2⟩ := h3 (p' ++ [p0] ++ [g]) g (.snoc p' p0 g hp1 hg) (by simp)
    refine ⟨T, n2 ▸ t1, fun k => ⟨_, hp5 k, ?_⟩⟩
    rw [t2, pathT, List.map_append, List.prod_append]
    congr 1
    rw [List.map_singleton, List.prod_singleton, localT, n3, n5]
    simp [motion, n4]

/-- C29: the joint parameters are the model's joints, each once. -/
theorem C29_joint_names (m : MjModel) (f : Frame) (h : MjSupported m) (hl : Loaded m f) :
    ((Chain.init f).getJointParameterNames).Perm (m.joints.map fun j => some j.name) := by
  have e : (Chain.init f).getJointParameterNames = (movingJoints f).map Joint.name := jointParamNames_eq f
  have hj : (m.joints.map fun j => some j.name).Nodup := by
    have := h.jnt_names.map (f := some) fun a b => Option.some.inj
    rwa [List.map_map] at this
  rw [e, List.perm_ext_iff_of_nodup (C29_usable m f h hl).1.joints_nodup hj]
  intro x
  constructor
  · intro hx
    obtain ⟨q, hq, rfl⟩ := List.mem_map.1 hx
    obtain ⟨mq, g, hg, rfl⟩ := mem_movingJoints.1 hq
    rcases hl.only g hg with rfl | ⟨i, b, e, _, e2, _, d⟩ | ⟨s, _, _, _, e, _⟩
    · obtain ⟨_, _, _, _, e, _⟩ := hl.root
      exact absurd e mq
    · cases hB : bodyJnt m b with
      | none => rw [hB] at d; exact absurd d.1 mq
      | some j =>
        rw [hB] at d
        refine List.mem_map.2 ⟨j, ?_, d.1.symm⟩
        unfold bodyJnt at hB
        split at hB
        · cases hB
        · exact List.mem_of_getElem? hB
    · exact absurd e mq
  · intro hx
    obtain ⟨j, hj, rfl⟩ := List.mem_map.1 hx
    obtain ⟨k, hk, rfl⟩ := List.mem_iff_getElem.1 hj
    obtain ⟨i, b, e, h0, h1, h2⟩ := h.jnt_body k hk
    obtain ⟨p, hp, g, hg, _, _, _, d⟩ := hl.bodies i b e h0
    have hB : bodyJnt m b = some m.joints[k] := by simp [bodyJnt, h1, h2, hk]
    rw [hB] at d
    refine List.mem_map.2 ⟨g.joint, mem_movingJoints.2 ⟨?_, g, preorder_children hp hg, rfl⟩, d.1⟩
    intro hfix
    have h5 := d.2.2.2.2
    have hne := h.jnt_axis _ (List.getElem_mem hk)
    have hu := (axis_scaled _ hne).1
    have hn : normalizeAxis m.joints[k].axis = (1 / vlen m.joints[k].axis) • m.joints[k].axis := by
      funext i; simp [normalizeAxis, div_eq_inv_mul, vlen, norm3, dot, pow_two]
    rw [hn] at hu
    rcases h.jnt_kind _ (List.getElem_mem hk) with ht | ht
    · have := h5 Real.pi
      simp only [motion, hfix, mjMotion, ht] at this
      generalize (1 / vlen m.joints[k].axis) • m.joints[k].axis = a at this hu
      have e0 := congrFun (congrFun this 0) 0
      have e1 := congrFun (congrFun this 1) 1
      have e2 := congrFun (congrFun this 2) 2
      simp [mkHom, rotAbout, rodrigues, cross_apply, dot] at e0 e1 e2
      unfold IsUnitV at hu
      nlinarith
    · have := h5 1
      simp only [motion, hfix, mjMotion, ht] at this
      generalize (1 / vlen m.joints[k].axis) • m.joints[k].axis = a at this hu
      have e0 := congrFun (congrFun this 0) 3
      have e1 := congrFun (congrFun this 1) 3
      have e2 := congrFun (congrFun this 2) 3
      simp [mkHom] at e0 e1 e2
      simp [IsUnitV, ← e0, ← e1, ← e2] at hu

/-- the joint of the example -/
def exJnt (a : V3) (lim : Bool) (r : Fl × Fl) : MJoint := ⟨n!"hip", .hinge, a, ![0, 0, 1], r, lim⟩

/-- the bodies of the example: a torso one unit up, a leg on a hinge -/
def exBody : ℕ → Body
  | 0 => ⟨n!"world", 0, ![0, 0, 0], ⟨1, 0, 0, 0⟩, 0, 0⟩
  | 1 => ⟨n!"torso", 0, ![0, 0, 1], ⟨1, 0, 0, 0⟩, 0, 0⟩
  | _ => ⟨n!"leg", 1, ![1, 0, 0], ⟨0, 1, 0, 0⟩, 1, 0⟩

/-- world, torso, leg on a hinge with anchor `a`, a foot site -/
def exMj (a : V3) (lim : Bool) (r : Fl × Fl) : MjModel where
  bodies := [exBody 0, exBody 1, exBody 2]
  joints := [exJnt a lim r]
  sites := [⟨n!"foot", 2, ![0, 0, 2], ⟨1, 0, 0, 0⟩⟩]
  geoms := []

theorem exMj_supported (a : V3) (lim : Bool) (r : Fl × Fl) : MjSupported (exMj a lim r) := by
  have hq1 : toH ⟨1, 0, 0, 0⟩ ≠ 0 := fun h => by 
    have : (1 : ℝ) = 0 := congrArg (fun q => q.re) h
    exact one_ne_zero this
  have hq2 : toH ⟨0, 1, 0, 0⟩ ≠ 0 := fun h => by 
    have : (1 : ℝ) = 0 := congrArg (fun q => q.imI) h
    exact one_ne_zero this
  have cases3 : ∀ (i : ℕ) (b : Body), (exMj a lim r).bodies[i]? = some b → i = 0 ∧ b = exBody 0 ∨
      i = 1 ∧ b = exBody 1 ∨ i = 2 ∧ b = exBody 2 := by
    intro i b h
    rcases i with _ | _ | _ | i
    · exact Or.inl ⟨rfl, by simpa [exMj] using h.symm⟩
    · exact Or.inr (Or.inl ⟨rfl, by simpa [exMj] using h.symm⟩)
    · exact Or.inr (Or.inr ⟨rfl, by simpa [exMj] using h.symm⟩)
    · simp [exMj] at h
  refine ⟨by simp [exMj], ?_, ?_, by simp [exMj], by simp [exMj, exBody], by simp [exMj, exBody], by simp [exMj, exBody],
    by simp [exMj, exBody], ?_, ?_, by simp [exMj, exJnt], ?_, by simp [exMj], ?_, ?_, ?_⟩
  · intro b h
    rcases cases3 0 b h with ⟨_, rfl⟩ | ⟨h, _⟩ | ⟨h, _⟩
    · rfl
    all_goals exact absurd h (by simp)
  · intro i b h h0
    rcases cases3 i b h with ⟨rfl, rfl⟩ | ⟨rfl, rfl⟩ | ⟨rfl, rfl⟩ <;> simp [exBody] at h0 ⊢
  · intro i k x y hx hy h1 h2 _
    rcases cases3 i x hx with ⟨rfl, rfl⟩ | ⟨rfl, rfl⟩ | ⟨rfl, rfl⟩ <;> simp [exBody] at h1
    rcases cases3 k y hy with ⟨rfl, rfl⟩ | ⟨rfl, rfl⟩ | ⟨rfl, rfl⟩ <;> simp [exBody] at h2
    rfl
  · intro k hk
    simp only [exMj, List.length_singleton, Nat.lt_one_iff] at hk
    exact ⟨2, exBody 2, rfl, by simp, rfl, hk.symm⟩
  · simp only [exMj, exJnt, List.mem_singleton, forall_eq]
    intro h; simpa using congrFun h 2
  · intro b h
    rcases cases3 0 b h with ⟨_, rfl⟩ | ⟨h, _⟩ | ⟨h, _⟩
    · rfl
    all_goals exact absurd h (by simp)
  · simp only [exMj, List.mem_cons, List.not_mem_nil, or_false]
    rintro b (rfl | rfl | rfl)
    exacts [hq1, hq1, hq2]
  · simp only [exMj, List.mem_singleton, forall_eq]
    exact hq1

example : ∃ f, buildRoot (exMj 0 true (.fin 0, .fin 1)) 4 .default = .ok f ∧ Loaded (exMj 0 true (.fin 0, .fin 1)) f ∧
    ∀ b ∈ (exMj 0 true (.fin 0, .fin 1)).bodies, ∀ j, bodyJnt (exMj 0 true (.fin 0, .fin 1)) b = some j → j.pos = 0 := by
  obtain ⟨f, h1, h2⟩ := C29_mjcf_tree _ (exMj_supported 0 true (.fin 0, .fin 1)) 4 (by simp [exMj])
  refine ⟨f, h1, h2, ?_⟩
  simp only [exMj, List.mem_cons, List.not_mem_nil, or_false]
  rintro b (rfl | rfl | rfl) j hj <;> simp [bodyJnt, exBody] at hj
  subst hj; rfl

/-- C29: what the loader computes for every supported model: the joint's anchor is applied but not undone. -/
theorem C29_child_pose (m : MjModel) (f : Frame) (h : MjSupported m) (hl : Loaded m f) {B : ℕ} (th : List (Fin B → ℝ))
    (hth : th.length = (movingJoints f).length) :
    ∃ d, (Chain.init f).forwardKinematics th = .ok d ∧
      (∀ w, m.bodies[0]? = some w → ∃ T, d.get? w.name = some T ∧ ∀ k, T k = quatPose w.pos w.quat) ∧
      ∀ i b p, m.bodies[i]? = some b → 0 < i → m.bodies[b.parentid]? = some p → ∃ Tp Tc, d.get? p.name = some Tp ∧ d.get? b.name = some Tc ∧
        ∀ k, Tc k = Tp k * (quatPose b.pos b.quat * match bodyJnt m b with
          | none => 1
          | some j => transT j.pos * mjMotion j (named f th k j.name)) := by
  obtain ⟨hw, -⟩ := C29_usable m f h hl
  obtain ⟨d, h1, -, h3⟩ := C01_fk_is_path_product f hw th hth
  refine ⟨d, h1, ?_, fun i b p e h0 hp => ?_⟩
  · intro w hw0
    obtain ⟨b0, e0, e1, e2, e3, e4⟩ := hl.root
    rw [hw0] at e0; cases e0
    obtain ⟨T, t1, t2⟩ := h3 [f] f .single rfl
    refine ⟨T, e1 ▸ t1, fun k => ?_⟩
    rw [t2, pathT, List.map_singleton, List.prod_singleton, localT, e2, e4]
    simp [motion, e3]
  obtain ⟨p0, g0, g, hg, n1, n2, n3, n4⟩ := hl.bodies i b e h0
  rw [hp, Option.map_some, Option.some.injEq] at n1
  obtain ⟨l, l1, l2, l3⟩ := path_snoc g0 hg
  obtain ⟨Tp, a1, a2⟩ := h3 l p0 l1 l2
  obtain ⟨Tc, b1, b2⟩ := h3 (l ++ [g]) g l3 (by simp)
  refine ⟨Tp, Tc, n1 ▸ a1, n2 ▸ b1, fun k => ?_⟩
  rw [a2, b2, pathT, pathT, List.map_append, List.prod_append]
  congr 1
  rw [List.map_singleton, List.prod_singleton, localT, n3, Option.getD_some, Matrix.mul_assoc]
  congr 1
  cases hB : bodyJnt m b with
  | none => rw [hB] at n4; simp [n4.2, motion, n4.1]
  | some j =>
    rw [hB] at n4
    obtain ⟨d1, d2, d3, d4, d5⟩ := n4
    rw [d2, Option.getD_some, colVal_named f th k g.joint j.name d1, d5]

/-- C29 is false: a leg on a hinge whose anchor is one unit from the leg's origin is reported, with the
joint at zero, away from the product of the body poses down to it. -/
theorem C29_fails : ∃ f, buildRoot (exMj ![1, 0, 0] true (.fin 0, .fin 1)) 4 .default = .ok f ∧ ∃ d T,
    (Chain.init f).forwardKinematics (B := 1) [fun _ => 0] = .ok d ∧ d.get? n!"leg" = some T ∧
    ∀ W, MjPlaced (exMj ![1, 0, 0] true (.fin 0, .fin 1)) (fun _ => 0) 2 W → T 0 ≠ W := by
  set m := exMj ![1, 0, 0] true (.fin 0, .fin 1) with hm
  have hs : MjSupported m := exMj_supported _ _ _
  obtain ⟨f, h1, h2⟩ := C29_mjcf_tree m hs 4 (by simp [hm, exMj])
  refine ⟨f, h1, ?_⟩
  have hlen : (movingJoints f).length = 1 := by
    have e : (Chain.init f).getJointParameterNames = (movingJoints f).map Joint.name := jointParamNames_eq f
    have := (C29_joint_names m f hs h2).length_eq
    rw [e] at this
    simpa [hm, exMj] using this
  obtain ⟨d, hd, hw, h⟩ := C29_child_pose m f hs h2 (B := 1) [fun _ => 0] (by simp [hlen])
  obtain ⟨T0, c1, c2⟩ := hw (exBody 0) rfl
  obtain ⟨T0', T1, a1, a2, a3⟩ := h 1 (exBody 1) (exBody 0) rfl (by simp) rfl
  obtain ⟨T1', T2, b1, b2, b3⟩ := h 2 (exBody 2) (exBody 1) rfl (by simp) rfl
  refine ⟨d, T2, hd, b2, fun W hW => ?_⟩
  have q0 : T0' = T0 := Option.some.inj (a1.symm.trans c1)
  have q1 : T1' = T1 := Option.some.inj (b1.symm.trans a2)
  subst q0 q1
  have hJ1 : bodyJnt m (exBody 1) = none := rfl
  have hJ2 : bodyJnt m (exBody 2) = some (exJnt ![1, 0, 0] true (.fin 0, .fin 1)) := rfl
  simp only [hJ1, hJ2] at a3 b3
  set X := quatPose (exBody 0).pos (exBody 0).quat * quatPose (exBody 1).pos (exBody 1).quat *
    quatPose (exBody 2).pos (exBody 2).quat with hX
  have hXr : IsRigid X := ((quatPose_rigid (hs.quat_body _ (by simp [hm, exMj]))).mul
    (quatPose_rigid (hs.quat_body _ (by simp [hm, exMj])))).mul (quatPose_rigid (hs.quat_body _ (by simp [hm, exMj])))
  have hWX : W = X := by
    cases hW with
    | child _ b T e _ hW1 =>
      cases e
      replace hW1 : MjPlaced m (fun _ => 0) 1 T := hW1
      cases hW1 with
      | child _ b T e _ hW2 =>
        cases e
        replace hW2 : MjPlaced m (fun _ => 0) 0 T := hW2
        cases hW2 with
        | world b e => cases e; simp only [mjLocal_zero]; rfl
        | child _ _ _ _ h0 _ => exact absurd h0 (by simp)
  have hz : named f (B := 1) [fun _ => 0] 0 (exJnt ![1, 0, 0] true (.fin 0, .fin 1)).name = 0 := by
    unfold named
    generalize (Chain.init f).getJointParameterNames.idxOf _ = i
    rcases i with _ | i <;> simp
  have hmot : mjMotion (exJnt ![1, 0, 0] true (.fin 0, .fin 1)) 0 = 1 := by
    simp only [mjMotion, exJnt]
    rw [← axisAndAngleToMatrix33_eq_rotAbout, axisAndAngle_zero, mkHom_one]
  have hT : T2 0 = X * transT ![1, 0, 0] := by
    rw [b3, a3, c2, hz, hmot, hX]
    simp only [Matrix.mul_one, Matrix.mul_assoc]
    rfl
  rw [hWX, hT]
  intro he
  have hinv := invOf_spec (t := ⟨.plain, [X], .f32, cpu, .f32, cpu⟩) (by simpa [Regular] using hXr) (M := X) (by simp)
  have := congrArg (fun M => invertMatrix X * M) he
  have hi : invertMatrix X * X = 1 := hinv.2
  simp only [← Matrix.mul_assoc, hi, Matrix.one_mul] at this
  have e := congrFun (congrFun this 0) 3
  simp [transT, mkHom] at e

end Mjcf
end PK
