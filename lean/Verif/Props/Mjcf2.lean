import Verif.Props.Mjcf
import Verif.Props.Urdf2

/-!
# Further properties of the MJCF loader: C77 serial chains, C81 limits, C82 joints, C83 the `body` argument, C84 unnamed
elements
-/

namespace PK
open Spec Matrix
namespace Mjcf

/-! ## C77 -/

theorem edge_frames {m : MjModel} {f : Frame} (h2 : Loaded m f) : ∀ e ∈ mjEdges m, ∃ p ∈ preorder f, ∃ g ∈ p.children,
    p.name = e.parent ∧ g.name = e.child ∧ MjDeclared e.joint g.joint := by
  intro e he
  unfold mjEdges at he
  rcases List.mem_append.1 he with he | he
  · obtain ⟨b, hb, rfl⟩ := List.mem_map.1 he
    obtain ⟨i, hi⟩ := List.mem_iff_getElem?.1 hb
    rw [List.getElem?_drop] at hi
    obtain ⟨p, hp, g, hg, a1, a2, _, a4⟩ := h2.bodies _ b hi (by omega)
    exact ⟨p, hp, g, hg, by rw [a1]; rfl, a2, a4⟩
  · obtain ⟨s, hs, rfl⟩ := List.mem_map.1 he
    obtain ⟨p, hp, g, hg, a1, a2, _, a4⟩ := h2.sites s hs
    exact ⟨p, hp, g, hg, by rw [a1]; rfl, a2, a4⟩

/-- C77, MJCF: `build_serial_chain_from_mjcf`; the elements below the world are the bodies and sites. -/
theorem C77_serial_mjcf (m : MjModel) (h : MjSupported m) (fuel : ℕ) (hf : m.bodies.length + m.sites.length ≤ fuel)
    (w : Body) (hw : m.bodies[0]? = some w) (rootArg endLink : Name) :
    (∀ es, startLink w.name rootArg ∈ m.bodies.map Body.name ++ m.sites.map Site.name →
        DescPath MjEdge.parent MjEdge.child (mjEdges m) (startLink w.name rootArg) endLink es →
      ∃ s qs, buildSerialChain m fuel endLink rootArg = .ok s ∧
        List.Forall₂ (fun (e : MjEdge) q => MjDeclared e.joint q) es qs ∧
        s.chain.getFrameNames false = startLink w.name rootArg :: es.map MjEdge.child ∧
        s.chain.getJoints = qs.filter (fun q => decide (Moving q)) ∧
        s.chain.getJointParameterNames = (qs.filter fun q => decide (Moving q)).map Joint.name) ∧
    (buildSerialChain m fuel endLink rootArg = .error .valueError ↔
      rootArg ≠ [] ∧ rootArg ∉ m.bodies.map Body.name ++ m.sites.map Site.name) ∧
    (buildSerialChain m fuel endLink rootArg = .error .keyError ↔
      startLink w.name rootArg ∈ m.bodies.map Body.name ++ m.sites.map Site.name ∧
      ∀ es, ¬ DescPath MjEdge.parent MjEdge.child (mjEdges m) (startLink w.name rootArg) endLink es) := by
  obtain ⟨f, h1, h2⟩ := C29_mjcf_tree m h fuel hf
  have hwf := (C29_usable m f h h2).1
  have e : buildSerialChain m fuel endLink rootArg = SerialChain.init f endLink rootArg := by
    simp only [buildSerialChain, buildChain, h1, ok_bind]; rfl
  rw [e]
  obtain ⟨b0, e0, e1, _⟩ := h2.root
  have hb : b0 = w := Option.some.inj (e0.symm.trans hw)
  subst hb
  exact serial_desc (Q := fun e q => MjDeclared e.joint q) hwf e1 h2.frames h2.children (edge_frames h2) rootArg endLink

/-- from the torso of the example to its foot: the frames are torso, leg and foot, the joint is the hip -/
example : ∃ s, buildSerialChain (exMj 0 true (.fin 0, .fin 1)) 4 n!"foot" n!"torso" = .ok s ∧
    s.chain.getFrameNames false = [n!"torso", n!"leg", n!"foot"] := by
  obtain ⟨h, _⟩ := C77_serial_mjcf _ (exMj_supported 0 true (.fin 0, .fin 1)) 4 (by simp [exMj]) (exBody 0) rfl n!"torso" n!"foot"
  have p0 : DescPath MjEdge.parent MjEdge.child (mjEdges (exMj 0 true (.fin 0, .fin 1))) n!"torso" n!"torso" [] := .nil
  have p1 := DescPath.snoc _ (⟨n!"torso", n!"leg", some (exJnt 0 true (.fin 0, .fin 1))⟩ : MjEdge) p0
    (by simp [mjEdges, exMj, exBody, bodyJnt])
  have p2 := DescPath.snoc _ (⟨n!"leg", n!"foot", none⟩ : MjEdge) p1 (by simp [mjEdges, exMj, exBody])
  obtain ⟨s, qs, h1, _, h3, _⟩ := h _ (by simp [startLink, exMj, exBody]) p2
  exact ⟨s, h1, h3⟩

/-! ## C81 -/

/-- A model's bounds for a joint: its range if it is limited, otherwise none. -/
noncomputable def mjBounds (j : MJoint) : Fl × Fl := if j.limited then j.range else (.ninf, .pinf)

/-- Every joint, limited or not, gets its range. -/
theorem range_entry (m : MjModel) (f : Frame) (h : MjSupported m) (h2 : Loaded m f) (j : MJoint) (hj : j ∈ m.joints) :
    ∃ i : ℕ, (Chain.init f).getJointParameterNames[i]? = some (some j.name) ∧
      (Chain.init f).low[i]? = some j.range.1 ∧ (Chain.init f).high[i]? = some j.range.2 := by
  have e : (Chain.init f).getJointParameterNames = (movingJoints f).map Joint.name := jointParamNames_eq f
  have hmem : some j.name ∈ (movingJoints f).map Joint.name := by
    rw [← e, (C29_joint_names m f h h2).mem_iff]
    exact List.mem_map.2 ⟨j, hj, rfl⟩
  obtain ⟨q, hq, eq⟩ := List.mem_map.1 hmem
  obtain ⟨mq, g, hg, rfl⟩ := mem_movingJoints.1 hq
  have hl : g.joint.limits = some j.range := by
    rcases h2.only g hg with rfl | ⟨i, b, _, _, _, _, d⟩ | ⟨s, _, _, _, e, _⟩
    · obtain ⟨_, _, _, _, e, _⟩ := h2.root
      exact absurd e mq
    · cases hB : bodyJnt m b with
      | none => rw [hB] at d; exact absurd d.1 mq
      | some j' =>
        rw [hB] at d
        have hj' : j' ∈ m.joints := by
          unfold bodyJnt at hB
          split at hB
          · cases hB
          · exact List.mem_of_getElem? hB
        have : j' = j := List.inj_on_of_nodup_map h.jnt_names hj' hj (Option.some.inj (d.1.symm.trans eq))
        rw [d.2.2.1, this]
    · exact absurd e mq
  obtain ⟨i, e1, e2, e3⟩ := limit_entry f Joint.limits g.joint hq
  refine ⟨i, by rw [e1, eq], ?_, ?_⟩
  · refine e2.trans ?_
    rw [hl]; rfl
  · refine e3.trans ?_
    rw [hl]; rfl

/-- C81 (part): the chain's limits of every limited joint are its range, at the position of the joint in the joint
parameter names.  Missing from the full statement: joints that are not limited. -/
theorem C81_limits_partial (m : MjModel) (h : MjSupported m) (fuel : ℕ) (hf : m.bodies.length + m.sites.length ≤ fuel) :
    ∃ f, buildRoot m fuel .default = .ok f ∧ ∀ j ∈ m.joints, j.limited = true →
      ∃ i : ℕ, (Chain.init f).getJointParameterNames[i]? = some (some j.name) ∧
        (Chain.init f).low[i]? = some (mjBounds j).1 ∧ (Chain.init f).high[i]? = some (mjBounds j).2 := by
  obtain ⟨f, h1, h2⟩ := C29_mjcf_tree m h fuel hf
  refine ⟨f, h1, fun j hj hlim => ?_⟩
  obtain ⟨i, a, b, c⟩ := range_entry m f h h2 j hj
  exact ⟨i, a, by simpa [mjBounds, hlim] using b, by simpa [mjBounds, hlim] using c⟩

example : ∃ f, buildRoot (exMj 0 true (.fin 0, .fin 1)) 4 .default = .ok f ∧
    ∃ i : ℕ, (Chain.init f).low[i]? = some (.fin 0) ∧ (Chain.init f).high[i]? = some (.fin 1) := by
  obtain ⟨f, h1, h2⟩ := C81_limits_partial _ (exMj_supported 0 true (.fin 0, .fin 1)) 4 (by simp [exMj])
  obtain ⟨i, _, a, b⟩ := h2 (exJnt 0 true (.fin 0, .fin 1)) (by simp [exMj]) rfl
  exact ⟨f, h1, i, a, b⟩

/-- C81 is false: a hinge without limits, whose range MuJoCo leaves at `0 0`, is reported as limited to `0`. -/
theorem C81_fails : ∃ f, buildRoot (exMj 0 false (.fin 0, .fin 0)) 4 .default = .ok f ∧
    ∃ j ∈ (exMj 0 false (.fin 0, .fin 0)).joints, mjBounds j = (.ninf, .pinf) ∧
      ∃ i : ℕ, (Chain.init f).getJointParameterNames[i]? = some (some j.name) ∧
        (Chain.init f).low[i]? = some (.fin 0) ∧ (Chain.init f).high[i]? = some (.fin 0) := by
  obtain ⟨f, h1, h2⟩ := C29_mjcf_tree _ (exMj_supported 0 false (.fin 0, .fin 0)) 4 (by simp [exMj])
  have hj : exJnt 0 false (.fin 0, .fin 0) ∈ (exMj 0 false (.fin 0, .fin 0)).joints := by simp [exMj]
  exact ⟨f, h1, _, hj, rfl, range_entry _ f (exMj_supported _ _ _) h2 _ hj⟩

/-! ## C82 -/

/-- C82 (part): a supported model loads: at most one joint per body, hinges and slides only. -/
theorem C82_loads_partial (m : MjModel) (h : MjSupported m) (fuel : ℕ) (hf : m.bodies.length + m.sites.length ≤ fuel) :
    ∃ c, buildChain m fuel .default = .ok c :=
  let ⟨f, h1, _⟩ := C29_mjcf_tree m h fuel hf
  ⟨Chain.init f, by simp only [buildChain, h1, ok_bind]; rfl⟩

/-- A list of results, one by one. -/
theorem mapM_ok_iff {α β : Type} (f : α → Except Err β) (l : List α) (l' : List β) :
    l.mapM f = .ok l' ↔ List.Forall₂ (fun a b => f a = .ok b) l l' := by
  induction l generalizing l' with
  | nil =>
    rw [List.mapM_nil, List.forall₂_nil_left_iff, pure_ok]
    exact ⟨fun h => (Except.ok.inj h).symm, fun h => by rw [h]⟩
  | cons a l ih =>
    rw [List.mapM_cons]
    cases ha : f a with
    | error e =>
      rw [error_bind]
      refine ⟨fun h => (by cases h), fun h => ?_⟩
      cases h with
      | cons h1 _ => rw [ha] at h1; cases h1
    | ok b =>
      rw [ok_bind]
      cases hl : l.mapM f with
      | error e =>
        rw [error_bind]
        refine ⟨fun h => (by cases h), fun h => ?_⟩
        cases h with
        | cons _ h2 => rw [← ih, hl] at h2; cases h2
      | ok bs =>
        rw [ok_bind, pure_ok]
        constructor
        · intro h
          cases Except.ok.inj h
          exact .cons ha ((ih _).1 hl)
        · intro h
          cases h with
          | cons h1 h2 =>
            rw [← ih, hl] at h2
            rw [ha] at h1
            rw [Except.ok.inj h1, Except.ok.inj h2]

theorem forall₂_mem {α β : Type} {R : α → β → Prop} {l : List α} {l' : List β} (h : List.Forall₂ R l l') {a : α} (ha : a ∈ l) :
    ∃ b ∈ l', R a b := by
  induction h with
  | nil => simp at ha
  | cons h1 _ ih =>
    rcases List.mem_cons.1 ha with rfl | ha
    · exact ⟨_, by simp, h1⟩
    · obtain ⟨b, hb, h⟩ := ih ha
      exact ⟨b, by simp [hb], h⟩

theorem exists_forall₂ {α β : Type} {R : α → β → Prop} {l : List α} (h : ∀ a ∈ l, ∃ b, R a b) : ∃ l', List.Forall₂ R l l' := by
  induction l with
  | nil => exact ⟨[], .nil⟩
  | cons a l ih =>
    obtain ⟨b, hb⟩ := h a (by simp)
    obtain ⟨l', hl⟩ := ih fun x hx => h x (by simp [hx])
    exact ⟨b :: l', .cons hb hl⟩

/-- the child bodies of body `id` with their numbers -/
def kids (m : MjModel) (id : ℕ) : List (Body × ℕ) := m.bodies.zipIdx.filter fun p => p.1.parentid == id && p.2 != id

/-- the frame of a site -/
noncomputable def siteFrame (s : Site) : Frame :=
  .mk s.name ⟨some s.name, some (mkHom (quaternionToMatrix s.quat) s.pos), []⟩ Joint.init []

/-- the frame of a body with joint `j` and what is below it -/
noncomputable def bodyFrame (b : Body) (j : Joint) (r : List Visual × List Frame) : Frame :=
  .mk b.name ⟨some b.name, some (mkHom (quaternionToMatrix b.quat) b.pos), r.1⟩ j r.2

theorem siteFrames_ok (m : MjModel) (id : ℕ) :
    siteFrames m id = .ok ((m.sites.filter fun s => s.bodyid == id).map siteFrame) := by
  refine mapM_ok_map _ _ _ fun s _ => ?_
  rw [poseMatrix_ok, ok_bind]
  rfl

/-- When the recursion succeeds, and with what. -/
theorem buildRecurse_iff (m : MjModel) (fuel id : ℕ) (r : List Visual × List Frame) :
    buildRecurse m (fuel + 1) id = .ok r ↔ bodyToGeoms m id = .ok r.1 ∧
      ∃ bs, List.Forall₂ (fun p c => ∃ j r', bodyJoint m p.1 = .ok j ∧ buildRecurse m fuel p.2 = .ok r' ∧
        c = bodyFrame p.1 j r') (kids m id) bs ∧ r.2 = bs ++ (m.sites.filter fun s => s.bodyid == id).map siteFrame := by
  have hk : ∀ (p : Body × ℕ) (c : Frame), (do
      let j ← bodyJoint m p.1
      let o ← poseMatrix p.1.pos p.1.quat
      let r ← buildRecurse m fuel p.2
      pure (Frame.mk p.1.name ⟨some p.1.name, some o, r.1⟩ j r.2)) = Except.ok c ↔
      ∃ j r', bodyJoint m p.1 = .ok j ∧ buildRecurse m fuel p.2 = .ok r' ∧ c = bodyFrame p.1 j r' := by
    intro p c
    rw [poseMatrix_ok]
    cases hj : bodyJoint m p.1 with
    | error e => simp [error_bind]
    | ok j =>
      simp only [ok_bind]
      cases hr : buildRecurse m fuel p.2 with
      | error e => simp
      | ok r =>
        simp only [ok_bind, pure_ok, Except.ok.injEq, exists_eq_left', exists_and_left]
        exact ⟨fun h => h.symm, fun h => h.symm⟩
  obtain ⟨v, hv⟩ := bodyToGeoms_ok m id
  obtain ⟨r1, r2⟩ := r
  rw [buildRecurse, hv, ok_bind, siteFrames_ok]
  cases hb : (kids m id).mapM (fun p => do
      let j ← bodyJoint m p.1
      let o ← poseMatrix p.1.pos p.1.quat
      let r ← buildRecurse m fuel p.2
      pure (Frame.mk p.1.name ⟨some p.1.name, some o, r.1⟩ j r.2)) with
  | error e =>
    unfold kids at hb
    rw [hb, error_bind]
    refine ⟨fun h => (by cases h), ?_⟩
    rintro ⟨_, bs, h, _⟩
    have := (mapM_ok_iff _ _ _).2 (h.imp fun p c h => (hk p c).2 h)
    unfold kids at this
    rw [hb] at this
    cases this
  | ok bs =>
    have hb' := hb
    unfold kids at hb
    rw [hb, ok_bind, ok_bind, pure_ok]
    constructor
    · intro h
      cases Except.ok.inj h
      exact ⟨rfl, bs, ((mapM_ok_iff _ _ _).1 hb').imp fun p c h => (hk p c).1 h, rfl⟩
    · rintro ⟨h1, bs', h2, h3⟩
      have := (mapM_ok_iff _ _ _).2 (h2.imp fun p c h => (hk p c).2 h)
      rw [hb'] at this
      cases Except.ok.inj this
      cases Except.ok.inj h1
      cases h3
      rfl

/-- The bodies of a compiled model: the world first, parents before children, joint numbers in range. -/
structure MjTree (m : MjModel) : Prop where
  world : m.bodies ≠ []
  /-- the world is its own parent -/
  world_parent : ∀ b, m.bodies[0]? = some b → b.parentid = 0
  parent_lt : ∀ i b, m.bodies[i]? = some b → 0 < i → b.parentid < i
  jnt_adr : ∀ b ∈ m.bodies, b.jntnum = 1 → b.jntadr < m.joints.length

/-- Bodies with one hinge, one slide or no joint. -/
def OneJoint (m : MjModel) (b : Body) : Prop :=
  b.jntnum = 0 ∨ b.jntnum = 1 ∧ ∀ j, m.joints[b.jntadr]? = some j → j.type = .hinge ∨ j.type = .slide

theorem bodyJoint_iff {m : MjModel} (h : MjTree m) {b : Body} (hb : b ∈ m.bodies) :
    (∃ q, bodyJoint m b = .ok q) ↔ OneJoint m b := by
  unfold bodyJoint OneJoint
  rcases Nat.lt_trichotomy b.jntnum 1 with h0 | h1 | h2
  · have : b.jntnum = 0 := by omega
    simp [this, pure_ok]
  · have hlt := h.jnt_adr b hb h1
    rw [List.getElem?_eq_getElem hlt]
    simp only [h1, T3_init_pos, ok_bind]
    generalize m.joints[b.jntadr] = j
    cases ht : j.type <;> simp [ht, jointTypeMap, ok_bind, error_bind, pure_ok]
  · have h0 : ¬ b.jntnum = 0 := by omega
    have h1 : ¬ b.jntnum = 1 := by omega
    simp [h2, h0, h1]

theorem mem_kids_iff {m : MjModel} {id : ℕ} {p : Body × ℕ} :
    p ∈ kids m id ↔ m.bodies[p.2]? = some p.1 ∧ p.1.parentid = id ∧ p.2 ≠ id := by
  unfold kids
  rw [List.mem_filter, List.mem_zipIdx_iff_getElem?]
  simp [bne_iff_ne]

/-- C82: exactly which models load: those all of whose bodies (besides the world) have at most one joint, a hinge or a
slide. -/
theorem C82_loads_iff (m : MjModel) (h : MjTree m) (fuel : ℕ) (hf : m.bodies.length ≤ fuel) :
    (∃ c, buildChain m fuel .default = .ok c) ↔ ∀ i b, m.bodies[i]? = some b → 0 < i → OneJoint m b := by
  have h0 : 0 < m.bodies.length := List.length_pos_iff.2 h.world
  have hb0 : m.bodies[0]? = some m.bodies[0] := List.getElem?_eq_getElem h0
  have e1 : (∃ c, buildChain m fuel .default = .ok c) ↔ ∃ r, buildRecurse m fuel 0 = .ok r := by
    simp only [buildChain, buildRoot, findBody, hb0, ok_bind, poseMatrix_ok]
    cases buildRecurse m fuel 0 with
    | error e => simp
    | ok r => simp [ok_bind, pure_ok]
  rw [e1]
  constructor
  · rintro ⟨r, hr⟩
    have key : ∀ i, ∀ b, m.bodies[i]? = some b → (∃ fuel r, buildRecurse m fuel i = .ok r) ∧ (0 < i → OneJoint m b) := by
      intro i
      induction i using Nat.strong_induction_on with
      | _ i ih =>
        intro b hb
        rcases Nat.eq_zero_or_pos i with rfl | hi
        · exact ⟨⟨fuel, r, hr⟩, fun h => absurd h (lt_irrefl _)⟩
        · have hlt := h.parent_lt i b hb hi
          have hlen := (List.getElem?_eq_some_iff.1 hb).1
          obtain ⟨⟨fu, r', hr'⟩, _⟩ := ih _ hlt _ (List.getElem?_eq_getElem (by omega))
          cases fu with
          | zero => cases hr'
          | succ fu =>
            obtain ⟨_, bs, hbs, _⟩ := (buildRecurse_iff m fu _ r').1 hr'
            have hmem : (b, i) ∈ kids m b.parentid := mem_kids_iff.2 ⟨hb, rfl, by simp only; omega⟩
            obtain ⟨c, _, j, r2, hj, hr2, _⟩ := forall₂_mem hbs hmem
            exact ⟨⟨fu, r2, hr2⟩, fun _ => (bodyJoint_iff h (List.mem_of_getElem? hb)).1 ⟨j, hj⟩⟩
    exact fun i b hb hi => (key i b hb).2 hi
  · intro hj
    have key : ∀ fuel id, id < m.bodies.length → m.bodies.length ≤ fuel + id → ∃ r, buildRecurse m fuel id = .ok r := by
      intro fuel
      induction fuel with
      | zero => intro id h1 h2; omega
      | succ fuel ih =>
        intro id h1 h2
        obtain ⟨v, hv⟩ := bodyToGeoms_ok m id
        have hk : ∀ p ∈ kids m id, ∃ c, ∃ j r', bodyJoint m p.1 = .ok j ∧ buildRecurse m fuel p.2 = .ok r' ∧
            c = bodyFrame p.1 j r' := by
          intro p hp
          obtain ⟨a1, a2, a3⟩ := mem_kids_iff.1 hp
          have hlen := (List.getElem?_eq_some_iff.1 a1).1
          have hpos : 0 < p.2 := by
            rcases Nat.eq_zero_or_pos p.2 with h0 | h0
            · rw [h0] at a1 a3
              exact absurd (a2.symm.trans (h.world_parent _ a1)).symm a3
            · exact h0
          have hlt := h.parent_lt _ _ a1 hpos
          obtain ⟨j, hj⟩ := (bodyJoint_iff h (List.mem_of_getElem? a1)).2 (hj _ _ a1 hpos)
          obtain ⟨r', hr'⟩ := ih p.2 hlen (by omega)
          exact ⟨_, j, r', hj, hr', rfl⟩
        obtain ⟨bs, hbs⟩ := exists_forall₂ hk
        exact ⟨(v, _), (buildRecurse_iff m fuel id (v, _)).2 ⟨hv, bs, hbs, rfl⟩⟩
    exact key fuel 0 h0 (by omega)

/-- two bodies: the world, and one with joints from number 0 on -/
def exTwo (n : ℕ) (js : List MJoint) : MjModel where
  bodies := [⟨n!"world", 0, ![0, 0, 0], ⟨1, 0, 0, 0⟩, 0, 0⟩, ⟨n!"torso", 0, ![0, 0, 1], ⟨1, 0, 0, 0⟩, n, 0⟩]
  joints := js
  sites := []
  geoms := []

theorem exTwo_tree (n : ℕ) (js : List MJoint) (h : n = 1 → js ≠ []) : MjTree (exTwo n js) := by
  refine ⟨by simp [exTwo], ?_, ?_, ?_⟩
  · intro b hb
    simp only [exTwo, List.getElem?_cons_zero, Option.some.injEq] at hb
    exact hb ▸ rfl
  · intro i b hb hi
    match i with
    | 0 => omega
    | 1 => simp only [exTwo, List.getElem?_cons_succ, List.getElem?_cons_zero, Option.some.injEq] at hb; subst hb; simp
    | i + 2 => simp [exTwo] at hb
  · simp only [exTwo, List.mem_cons, List.not_mem_nil, or_false]
    rintro b (rfl | rfl) h1
    · simp at h1
    · exact List.length_pos_iff.2 (h h1)

/-- C82 is false: a body on two slides (planar base), on a ball joint or on a free joint cannot be loaded. -/
theorem C82_fails (fuel : ℕ) (hf : 2 ≤ fuel) (a b : V3) :
    (¬ ∃ c, buildChain (exTwo 2 [⟨n!"x", .slide, 0, a, (.fin 0, .fin 0), false⟩, ⟨n!"y", .slide, 0, b, (.fin 0, .fin 0), false⟩])
      fuel .default = .ok c) ∧
    (¬ ∃ c, buildChain (exTwo 1 [⟨n!"b", .ball, 0, a, (.fin 0, .fin 0), false⟩]) fuel .default = .ok c) ∧
    ¬ ∃ c, buildChain (exTwo 1 [⟨n!"f", .free, 0, a, (.fin 0, .fin 0), false⟩]) fuel .default = .ok c := by
  refine ⟨?_, ?_, ?_⟩
  · rw [C82_loads_iff _ (exTwo_tree _ _ (by simp)) fuel hf]
    intro h
    rcases h 1 _ rfl (by simp) with h | ⟨h, _⟩ <;> simp at h
  all_goals
    rw [C82_loads_iff _ (exTwo_tree _ _ (by simp)) fuel hf]
    intro h
    rcases h 1 _ rfl (by simp) with h | ⟨_, h⟩
    · simp at h
    · simpa using h _ rfl

/-- one hinge is fine, even when the two bodies have the same name -/
example : ∃ c, buildChain (exTwo 1 [⟨n!"h", .hinge, 0, ![0, 0, 1], (.fin 0, .fin 0), false⟩]) 2 .default = .ok c := by
  refine (C82_loads_iff _ (exTwo_tree _ _ (by simp)) 2 (by simp [exTwo])).2 fun i b hb hi => ?_
  match i with
  | 0 => omega
  | 1 =>
    simp only [exTwo, List.getElem?_cons_succ, List.getElem?_cons_zero, Option.some.injEq] at hb
    subst hb
    exact Or.inr ⟨rfl, fun j hj => by cases hj; exact Or.inl rfl⟩
  | i + 2 => simp [exTwo] at hb

/-! ## C83 -/

theorem buildRecurse_mono (m : MjModel) : ∀ fuel id r, buildRecurse m fuel id = .ok r → ∀ fuel', fuel ≤ fuel' →
    buildRecurse m fuel' id = .ok r := by
  intro fuel
  induction fuel with
  | zero => intro id r h; cases h
  | succ fuel ih =>
    intro id r h fuel' hle
    obtain ⟨k, rfl⟩ : ∃ k, fuel' = k + 1 := ⟨fuel' - 1, by omega⟩
    obtain ⟨h1, bs, h2, h3⟩ := (buildRecurse_iff m fuel id r).1 h
    refine (buildRecurse_iff m k id r).2 ⟨h1, bs, h2.imp ?_, h3⟩
    rintro p c ⟨j, r', a, b, d⟩
    exact ⟨j, r', a, ih _ _ b k (by omega), d⟩

theorem mem_preorderL_iff {g : Frame} {l : List Frame} : g ∈ preorderL l ↔ ∃ c ∈ l, g ∈ preorder c := by
  induction l with
  | nil => simp [preorderL]
  | cons a l ih => simp [preorderL, ih]

theorem forall₂_mem' {α β : Type} {R : α → β → Prop} {l : List α} {l' : List β} (h : List.Forall₂ R l l') {b : β} (hb : b ∈ l') :
    ∃ a ∈ l, R a b := forall₂_mem h.flip hb

/-- The frames of the loaded tree are those of bodies, each with the result of the recursion on it, and those of sites. -/
theorem sub_frames (m : MjModel) : ∀ fuel id r, buildRecurse m fuel id = .ok r → ∀ g ∈ preorderL r.2,
    (∃ i b j r', m.bodies[i]? = some b ∧ g = bodyFrame b j r' ∧ ∃ fuel' ≤ fuel, buildRecurse m fuel' i = .ok r') ∨
    ∃ s ∈ m.sites, g = siteFrame s := by
  intro fuel
  induction fuel with
  | zero => intro id r h; cases h
  | succ fuel ih =>
    intro id r h g hg
    obtain ⟨h1, bs, h2, h3⟩ := (buildRecurse_iff m fuel id r).1 h
    obtain ⟨c, hc, hg⟩ := mem_preorderL_iff.1 hg
    rw [h3, List.mem_append] at hc
    rcases hc with hc | hc
    · obtain ⟨p, hp, j, r', a1, a2, rfl⟩ := forall₂_mem' h2 hc
      unfold bodyFrame at hg
      rw [preorder, List.mem_cons] at hg
      rcases hg with rfl | hg
      · exact Or.inl ⟨p.2, p.1, j, r', (mem_kids_iff.1 hp).1, rfl, fuel, by omega, a2⟩
      · rcases ih _ _ a2 g hg with ⟨i, b, j, r', e1, e2, fu, e3, e4⟩ | h
        · exact Or.inl ⟨i, b, j, r', e1, e2, fu, by omega, e4⟩
        · exact Or.inr h
    · obtain ⟨s, hs, rfl⟩ := List.mem_map.1 hc
      unfold siteFrame at hg
      rw [preorder, List.mem_cons] at hg
      rcases hg with rfl | hg
      · exact Or.inr ⟨s, (List.mem_filter.1 hs).1, rfl⟩
      · simp [preorderL] at hg

theorem find_body {m : MjModel} (h : MjSupported m) {i : ℕ} {b : Body} (hb : m.bodies[i]? = some b) :
    findBody m (.name b.name) = .ok (b, i) ∧ findBody m (.idx i) = .ok (b, i) := by
  have hn := (List.nodup_append.1 h.names).1
  constructor
  · unfold findBody
    cases hf : m.bodies.zipIdx.find? fun p => p.1.name == b.name with
    | none =>
      have := List.find?_eq_none.1 hf (b, i) (List.mem_zipIdx_iff_getElem?.2 hb)
      simp at this
    | some p =>
      have h1 := List.mem_zipIdx_iff_getElem?.1 (List.mem_of_find?_eq_some hf)
      have h2 : p.1.name = b.name := by simpa using List.find?_some hf
      have : p.2 = i := bname_inj h (List.getElem?_eq_some_iff.1 h1).1 (List.getElem?_eq_some_iff.1 hb).1
        (by simp [bname, h1, hb, h2])
      subst this
      have : p.1 = b := Option.some.inj (h1.symm.trans hb)
      subst this
      simp only [hf]
  · simp only [findBody, hb]

/-- A path in a tree with the same children as one of the frames of `f` continues a path to that frame. -/
theorem path_graft {f f' g : Frame} {pre : List Frame} (hpre : IsPath f (pre ++ [g])) (hc : f'.children = g.children)
    {l : List Frame} (h : IsPath f' l) : ∃ t, l = f' :: t ∧ IsPath f (pre ++ [g] ++ t) := by
  induction h with
  | single => exact ⟨[], rfl, by simpa using hpre⟩
  | snoc p a c _ hac ih =>
    obtain ⟨t, e, ht⟩ := ih
    refine ⟨t ++ [c], by rw [e]; rfl, ?_⟩
    rcases List.eq_nil_or_concat t with rfl | ⟨t', x, rfl⟩
    · have : a = f' := by
        have := congrArg List.getLast? e
        simpa using this
      rw [this, hc] at hac
      exact .snoc pre g c hpre hac
    · have : a = x := by
        have := congrArg List.getLast? e
        simpa [List.getLast?_cons] using this
      subst this
      have e2 : pre ++ [g] ++ (t' ++ [a] ++ [c]) = (pre ++ [g] ++ t') ++ [a] ++ [c] := by simp
      rw [List.concat_eq_append] at *
      rw [e2]
      refine .snoc _ a c ?_ hac
      simpa using ht

/-- C83: `build_chain_from_mjcf(data, body)` gives the body and everything below it, and for joint values that agree
the poses relative to the body are those in the whole model.  The body itself is placed by its `pos` and `quat`. -/
theorem C83_body_argument (m : MjModel) (h : MjSupported m) (fuel : ℕ) (hf : m.bodies.length + m.sites.length ≤ fuel)
    (i : ℕ) (b : Body) (hb : m.bodies[i]? = some b) :
    ∃ f f', buildRoot m fuel .default = .ok f ∧ buildRoot m fuel (.name b.name) = .ok f' ∧
      buildRoot m fuel (.idx i) = .ok f' ∧ WF f' ∧
      (∀ n, n ∈ (preorder f').map Frame.name ↔ ∃ es, DescPath MjEdge.parent MjEdge.child (mjEdges m) b.name n es) ∧
      ∀ {B : ℕ} (th th' : List (Fin B → ℝ)), th.length = (movingJoints f).length → th'.length = (movingJoints f').length →
        (∀ q ∈ movingJoints f', ∀ k, colVal f' th' k q = colVal f th k q) →
        ∃ d d', (Chain.init f).forwardKinematics th = .ok d ∧ (Chain.init f').forwardKinematics th' = .ok d' ∧
          ∃ Tb Tb', d.get? b.name = some Tb ∧ d'.get? b.name = some Tb' ∧ (∀ k, Tb' k = quatPose b.pos b.quat) ∧
          ∀ n ∈ (preorder f').map Frame.name, ∃ Tn Tn', d.get? n = some Tn ∧ d'.get? n = some Tn' ∧
            ∀ k, ∃ R, Tn k = Tb k * R ∧ Tn' k = Tb' k * R := by
  obtain ⟨f, h1, h2⟩ := C29_mjcf_tree m h fuel hf
  have hwf := (C29_usable m f h h2).1
  obtain ⟨w, hw, _⟩ := h2.root
  have hlen := (List.getElem?_eq_some_iff.1 hb).1
  -- the whole tree
  obtain ⟨r0, hr0, hf0⟩ : ∃ r0, buildRecurse m fuel 0 = .ok r0 ∧ f = bodyFrame w Joint.init r0 := by
    simp only [buildRoot, findBody, hw, ok_bind, poseMatrix_ok] at h1
    cases hr : buildRecurse m fuel 0 with
    | error e => rw [hr] at h1; cases h1
    | ok r0 =>
      rw [hr] at h1
      exact ⟨r0, rfl, (Except.ok.inj h1).symm⟩
  -- the body's frame in it
  obtain ⟨g, hg, j, r, hr, hgf⟩ : ∃ g ∈ preorder f, ∃ j r, buildRecurse m fuel i = .ok r ∧ g = bodyFrame b j r := by
    have hmem : b.name ∈ (preorder f).map Frame.name := by
      rw [h2.frames.mem_iff]
      exact List.mem_append_left _ (List.mem_map_of_mem (List.mem_of_getElem? hb))
    obtain ⟨g, hg, hgn⟩ := List.mem_map.1 hmem
    refine ⟨g, hg, ?_⟩
    have hg' := hg
    rw [hf0, bodyFrame, preorder, List.mem_cons] at hg'
    rcases hg' with rfl | hg'
    · have h0 : i = 0 := bname_inj h hlen (List.getElem?_eq_some_iff.1 hw).1
        (by simp only [bname, hb, hw, Option.map_some, Option.getD_some]; exact hgn.symm)
      subst h0
      cases Option.some.inj (hb.symm.trans hw)
      exact ⟨_, r0, hr0, rfl⟩
    · rcases sub_frames m _ _ _ hr0 g hg' with ⟨i', b', j, r', e1, e2, fu, e3, e4⟩ | ⟨s, hs, e⟩
      · have hn' : b'.name = b.name := by rw [← hgn, e2]; rfl
        have h0 : i' = i := bname_inj h (List.getElem?_eq_some_iff.1 e1).1 hlen
          (by simp [bname, hb, e1, hn'])
        subst h0
        cases Option.some.inj (hb.symm.trans e1)
        exact ⟨j, r', buildRecurse_mono m _ _ _ e4 _ e3, e2⟩
      · have : s.name = b.name := by rw [← hgn, e]; rfl
        exact absurd this.symm ((List.nodup_append.1 h.names).2.2 _ (List.mem_map_of_mem (List.mem_of_getElem? hb)) _
          (List.mem_map_of_mem hs))
  set f' := bodyFrame b Joint.init r with hf'
  have hch : f'.children = g.children := by rw [hgf]; rfl
  have hnm : f'.name = b.name := rfl
  have hgn : g.name = b.name := by rw [hgf]; rfl
  have hpre' : preorder f' = f' :: preorderL g.children := by rw [← hch]; exact preorder_eq f'
  have hpre : preorder g = g :: preorderL g.children := preorder_eq g
  have hsub := preorder_sub f hg
  have hnames : (preorder f').map Frame.name = (preorder g).map Frame.name := by
    rw [hpre', hpre, List.map_cons, List.map_cons, hnm, hgn]
  have hmj : (movingJoints f').Sublist (movingJoints f) := by
    have : movingJoints f' = ((preorderL g.children).map Frame.joint).filter fun j => decide (Moving j) := by
      unfold movingJoints
      rw [hpre', List.map_cons, List.filter_cons_of_neg]
      simp [hf', bodyFrame, Frame.joint, Joint.init, Moving]
    rw [this]
    refine List.Sublist.filter _ (List.Sublist.map _ (List.Sublist.trans ?_ hsub))
    rw [hpre]; exact List.sublist_cons_self _ _
  have hwf' : WF f' := by
    refine ⟨hnames ▸ (hsub.map _).nodup hwf.names_nodup, ?_, (hmj.map _).nodup hwf.joints_nodup⟩
    intro x hx
    rw [hpre', List.mem_cons] at hx
    rcases hx with rfl | hx
    · rw [hnm, ← hgn]; exact hwf.no_newline g hg
    · exact hwf.no_newline x (hsub.subset (by rw [hpre]; exact List.mem_cons_of_mem _ hx))
  have hroot' : ∀ arg, findBody m arg = .ok (b, i) → buildRoot m fuel arg = .ok f' := by
    intro arg ha
    simp only [buildRoot, ha, ok_bind, poseMatrix_ok, hr]
    rfl
  refine ⟨f, f', h1, hroot' _ (find_body h hb).1, hroot' _ (find_body h hb).2, hwf', ?_, ?_⟩
  · intro n
    rw [hnames, List.mem_map]
    constructor
    · rintro ⟨x, hx, rfl⟩
      obtain ⟨p, p1, p2⟩ := exists_path hx
      exact hgn ▸ desc_path h2.children hg (below_of_path p1 p2)
    · rintro ⟨es, hes⟩
      obtain ⟨p, fe, p1, p2, _, p4, _⟩ := frame_path hwf.names_nodup (edge_frames h2) hg (hgn ▸ hes)
      exact ⟨fe, path_last_mem p1 p2, p4⟩
  · intro B th th' hth hth' hval
    obtain ⟨d, d1, -, d3⟩ := C01_fk_is_path_product f hwf th hth
    obtain ⟨d', d1', -, d3'⟩ := C01_fk_is_path_product f' hwf' th' hth'
    obtain ⟨pg, pg1, pg2⟩ := exists_path hg
    obtain ⟨pre, rfl⟩ := List.getLast?_eq_some_iff.1 pg2
    obtain ⟨Tb, tb1, tb2⟩ := d3 _ g pg1 pg2
    obtain ⟨Tb', tb1', tb2'⟩ := d3' [f'] f' .single rfl
    refine ⟨d, d', d1, d1', Tb, Tb', hgn ▸ tb1, tb1', ?_, ?_⟩
    · intro k
      rw [tb2', pathT, List.map_singleton, List.prod_singleton]
      have := poseMatrix_eq (p := b.pos) (h.quat_body b (List.mem_of_getElem? hb))
      simp [localT, hf', bodyFrame, Frame.link, Frame.joint, Joint.init, motion, this]
    · intro n hn
      obtain ⟨x, hx, rfl⟩ := List.mem_map.1 hn
      obtain ⟨px, px1, px2⟩ := exists_path hx
      obtain ⟨t, rfl, ht⟩ := path_graft pg1 hch px1
      obtain ⟨Tn', tn1', tn2'⟩ := d3' _ x px1 px2
      have hlast : ∃ y, (pre ++ [g] ++ t).getLast? = some y ∧ y.name = x.name := by
        rcases List.eq_nil_or_concat t with rfl | ⟨t', y, rfl⟩
        · have : x = f' := by simpa using px2.symm
          exact ⟨g, by simp, by rw [this, hgn, hnm]⟩
        · have : y = x := by simpa [List.getLast?_cons] using px2
          exact ⟨y, by simp [List.getLast?_cons], by rw [this]⟩
      obtain ⟨y, hy, hyn⟩ := hlast
      obtain ⟨Tn, tn1, tn2⟩ := d3 _ y ht hy
      refine ⟨Tn, Tn', hyn ▸ tn1, tn1', fun k => ⟨pathT (colVal f th k) t, ?_, ?_⟩⟩
      · rw [tn2, tb2, pathT, pathT, pathT, ← List.prod_append, ← List.map_append]
      · rw [tn2', tb2', pathT, pathT, pathT, ← List.prod_append]
        rw [List.map_cons, List.map_singleton, List.singleton_append, List.prod_cons, List.prod_cons]
        congr 2
        refine List.map_congr_left fun y hy => ?_
        by_cases hm : Moving y.joint
        · rw [hval y.joint (mem_movingJoints.2 ⟨hm, y, isPath_mem px1 y (List.mem_cons_of_mem _ hy), rfl⟩)]
        · have : y.joint.jtype = .fixed := not_not.1 hm
          simp [localT, motion, this]

/-- the example from its torso on: three frames instead of four -/
example : ∃ f', buildRoot (exMj 0 true (.fin 0, .fin 1)) 4 (.name n!"torso") = .ok f' ∧
    n!"foot" ∈ (preorder f').map Frame.name ∧ n!"world" ∉ (preorder f').map Frame.name := by
  obtain ⟨f, f', _, h2, _, _, h3, _⟩ := C83_body_argument _ (exMj_supported 0 true (.fin 0, .fin 1)) 4 (by simp [exMj]) 1 (exBody 1) rfl
  refine ⟨f', h2, (h3 _).2 ?_, fun h => ?_⟩
  · have p0 : DescPath MjEdge.parent MjEdge.child (mjEdges (exMj 0 true (.fin 0, .fin 1))) n!"torso" n!"torso" [] := .nil
    have p1 := DescPath.snoc _ (⟨n!"torso", n!"leg", some (exJnt 0 true (.fin 0, .fin 1))⟩ : MjEdge) p0
      (by simp [mjEdges, exMj, exBody, bodyJnt])
    exact ⟨_, DescPath.snoc _ (⟨n!"leg", n!"foot", none⟩ : MjEdge) p1 (by simp [mjEdges, exMj, exBody])⟩
  · obtain ⟨es, hes⟩ := (h3 _).1 h
    have key : ∀ n es, DescPath MjEdge.parent MjEdge.child (mjEdges (exMj 0 true (.fin 0, .fin 1))) n!"torso" n es → n ≠ n!"world" := by
      intro n es h
      cases h with
      | nil => simp
      | snoc js e _ he =>
        simp only [mjEdges, exMj, exBody, List.drop_succ_cons, List.drop_zero, List.map_cons, List.map_nil,
          List.cons_append, List.nil_append, List.mem_cons, List.not_mem_nil, or_false] at he
        rcases he with rfl | rfl | rfl <;> simp
    exact key _ _ hes rfl

/-! ## C84 -/

theorem set_length_le {K V : Type} [DecidableEq K] (d : Dict K V) (k : K) (v : V) : (d.set k v).length ≤ d.length + 1 := by
  induction d with
  | nil => simp [Dict.set]
  | cons a d ih =>
    simp only [Dict.set]
    split <;> simp only [List.length_cons] <;> omega

/-- Forward kinematics returns at most one pose per distinct frame name. -/
theorem fk_size (c : Chain) {B : ℕ} (th : List (Fin B → ℝ)) (d : Dict Name (Fin B → M4))
    (h : c.forwardKinematics th = .ok d) : d.length ≤ (c.getFrameNames false).length := by
  unfold Chain.forwardKinematics at h
  cases hi : c.getAllFrameIndices with
  | error e => rw [hi] at h; cases h
  | ok fis =>
    have hl : fis.length = (c.getFrameNames false).length :=
      ((mapM_ok_iff _ _ _).1 hi).length_eq.symm
    rw [hi] at h
    simp only [ok_bind] at h
    cases ha : c.fkTensor th with
    | error e => rw [ha] at h; cases h
    | ok all =>
      rw [ha, ok_bind] at h
      rw [← hl]
      have key : ∀ (fis : List ℕ) (d0 d : Dict Name (Fin B → M4)), fis.foldlM (fun d fi => do
          let name ← c.idxToFrame.item fi
          match all[fi]? with
          | some m => Except.ok (d.set name m)
          | none => .error .indexError) d0 = .ok d → d.length ≤ d0.length + fis.length := by
        intro fis
        induction fis with
        | nil => intro d0 d h; cases Except.ok.inj h; simp
        | cons i fis ih =>
          intro d0 d h
          rw [List.foldlM_cons] at h
          cases hn : c.idxToFrame.item i with
          | error e => rw [hn] at h; cases h
          | ok n =>
            rw [hn, ok_bind] at h
            cases hm : all[i]? with
            | none => rw [hm] at h; cases h
            | some T =>
              rw [hm, ok_bind] at h
              have h1 := ih _ _ h
              have h2 := set_length_le d0 n T
              rw [List.length_cons]
              omega
      simpa using key fis [] d h

/-- C84 (part): with distinct names of bodies and sites, forward kinematics returns one pose per body and per site, each
under its name.  Missing from the full statement: bodies and sites without a name (their name is empty). -/
theorem C84_all_elements_partial (m : MjModel) (h : MjSupported m) (fuel : ℕ) (hf : m.bodies.length + m.sites.length ≤ fuel) :
    ∃ f, buildRoot m fuel .default = .ok f ∧ ∀ {B : ℕ} (th : List (Fin B → ℝ)), th.length = m.joints.length →
      ∃ d, (Chain.init f).forwardKinematics th = .ok d ∧ d.length = m.bodies.length + m.sites.length ∧
        (∀ b ∈ m.bodies, d.get? b.name ≠ none) ∧ ∀ s ∈ m.sites, d.get? s.name ≠ none := by
  obtain ⟨f, h1, h2⟩ := C29_mjcf_tree m h fuel hf
  refine ⟨f, h1, fun {B} th hth => ?_⟩
  have hlen : (movingJoints f).length = m.joints.length := by
    have e : (Chain.init f).getJointParameterNames = (movingJoints f).map Joint.name := jointParamNames_eq f
    have := (C29_joint_names m f h h2).length_eq
    rw [e] at this
    simpa using this
  obtain ⟨d, d1, d2, d3⟩ := C01_fk_is_path_product f (C29_usable m f h h2).1 th (hth.trans hlen.symm)
  have key : ∀ n ∈ m.bodies.map Body.name ++ m.sites.map Site.name, d.get? n ≠ none := by
    intro n hn
    obtain ⟨g, hg, rfl⟩ := List.mem_map.1 (h2.frames.mem_iff.2 hn)
    obtain ⟨p, p1, p2⟩ := exists_path hg
    obtain ⟨T, t, _⟩ := d3 p g p1 p2
    rw [t]; simp
  refine ⟨d, d1, ?_, fun b hb => key _ (List.mem_append_left _ (List.mem_map_of_mem hb)),
    fun s hs => key _ (List.mem_append_right _ (List.mem_map_of_mem hs))⟩
  have := congrArg List.length d2
  rw [h2.frames.length_eq] at this
  simpa [Dict.keys] using this

/-- a world with two sites that have no name, at different places -/
def exNoName : MjModel where
  bodies := [⟨n!"world", 0, ![0, 0, 0], ⟨1, 0, 0, 0⟩, 0, 0⟩]
  joints := []
  sites := [⟨[], 0, ![1, 0, 0], ⟨1, 0, 0, 0⟩⟩, ⟨[], 0, ![0, 1, 0], ⟨1, 0, 0, 0⟩⟩]
  geoms := []

/-- C84 is false: of a world with two unnamed sites forward kinematics never returns more than two poses. -/
theorem C84_fails : ∃ f, buildRoot exNoName 1 .default = .ok f ∧ (preorder f).length = 3 ∧
    ∀ {B : ℕ} (th : List (Fin B → ℝ)) d, (Chain.init f).forwardKinematics th = .ok d → d.length ≤ 2 := by
  obtain ⟨v, hv⟩ := bodyToGeoms_ok exNoName 0
  have hr : buildRecurse exNoName 1 0 = .ok (v, exNoName.sites.map siteFrame) := by
    refine (buildRecurse_iff _ _ _ _).2 ⟨hv, [], ?_, ?_⟩
    · have : kids exNoName 0 = [] := rfl
      rw [this]; exact .nil
    · rfl
  refine ⟨bodyFrame ⟨n!"world", 0, ![0, 0, 0], ⟨1, 0, 0, 0⟩, 0, 0⟩ Joint.init (v, exNoName.sites.map siteFrame), ?_, rfl, ?_⟩
  · have : findBody exNoName .default = .ok (⟨n!"world", 0, ![0, 0, 0], ⟨1, 0, 0, 0⟩, 0, 0⟩, 0) := rfl
    simp only [buildRoot, this, ok_bind, poseMatrix_ok, hr]
    rfl
  · intro B th d h
    have := fk_size _ th d h
    exact this

end Mjcf
end PK
