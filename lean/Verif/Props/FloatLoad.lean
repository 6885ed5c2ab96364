import Verif.Lemmas.LoadRound
import Verif.Props.Float

/-!
# C135: from the file to the pose in floating-point arithmetic
-/

namespace PK
open Spec Matrix Urdf

theorem normalizeAxis_eq (a : V3) : normalizeAxis a = (vlen a)⁻¹ • a := by
  funext i; simp [normalizeAxis, vlen_eq_norm3, div_eq_inv_mul]

theorem convertTransformFl_total (m : TrigMachine) (o : Option Pose) : ∃ T, convertTransformFl m o = .ok T := by
  cases o with
  | none => exact ⟨_, rfl⟩
  | some p => exact ⟨_, rfl⟩

theorem convertLinkFl_total (m : TrigMachine) (l : Lnk) : ∃ w T, convertLinkFl m l = .ok w ∧ w.name = some l.name ∧
    convertTransformFl m l.origin = .ok T ∧ w.offset = some T := by
  obtain ⟨T, hT⟩ := convertTransformFl_total m l.origin
  have hv : ∃ v, convertVisualFl m l.visuals.head? = .ok v := by
    cases l.visuals.head? with
    | none => exact ⟨_, rfl⟩
    | some v =>
      obtain ⟨T, hT⟩ := convertTransformFl_total m v.origin
      exact ⟨_, by simp only [convertVisualFl, hT, ok_bind]; rfl⟩
  obtain ⟨v, hv⟩ := hv
  exact ⟨_, T, by simp only [convertLinkFl, hT, ok_bind, hv]; rfl, rfl, hT, rfl⟩

section
variable (L : TrigMachine) {τ A : ℝ} (hu : L.u ≤ τ) (hκ : L.κ ≤ τ) (hγ : L.γ ≤ 5 * τ) (A0 : 0 ≤ A) (hA : (1 + A) * τ ≤ 1 / 1000)
include hu hκ hγ A0 hA

theorem convertJointFl_ok (r : Robot) (hnd : (r.links.map Lnk.name).Nodup) (j : Jnt)
    (hc : j.child ∈ r.links.map Lnk.name) (hk : urdfKind j.type ≠ none) (ha : AnglesLe A j.origin) :
    ∃ w : Joint × Link, convertJointFl L r.linkMap j = .ok w ∧ DeclaredUpTo (410 * ((1 + A) * τ)) (9 * τ) j w.1 ∧
      w.2.name = some j.child ∧
      ∀ l ∈ r.links, l.name = j.child → ∃ T, w.2.offset = some T ∧ convertTransformFl L l.origin = .ok T := by
  have h0 : 0 ≤ τ := L.u_nonneg.trans hu
  have h1 : τ ≤ 1 / 1000 := by nlinarith [mul_nonneg A0 h0]
  obtain ⟨k, hk⟩ := Option.ne_none_iff_exists'.1 hk
  obtain ⟨l, hl, hln⟩ := List.mem_map.1 hc
  obtain ⟨w, T, w1, w2, w3, w4⟩ := convertLinkFl_total L l
  obtain ⟨T', hT', hw⟩ := convertTransformFl_ok L hu hκ A0 hA ha
  have hg : r.linkMap.get? j.child = some l := hln ▸ linkMap_get r hnd l hl
  refine ⟨(_, w), by simp only [convertJointFl, hT', ok_bind, jointTypeMap_ok hk, hg, w1]; rfl, ?_, by rw [w2, hln], ?_⟩
  · refine ⟨rfl, hk, ⟨T', rfl, hw⟩, fun a ha hne i => ?_, rfl, rfl, rfl⟩
    simp only [Joint.initFl, ha]
    rw [← normalizeAxis_eq]
    exact normalizeAxisFl_near L hu hκ hγ h1 hne i
  · intro l' hl' e
    have : l' = l := List.inj_on_of_nodup_map hnd hl' hl (by rw [e, hln])
    rw [this]; exact ⟨T, w4, w3⟩

/-- **C135**: loading stores every declared joint in single precision: one frame per link, in the declared tree, origins and axes
up to a multiple of the unit roundoff (for angles: times their size), limits exactly. -/
theorem C135_load (r : Robot) (root : Name) (h : UrdfTree r root) (hne : r.joints ≠ [])
    (hk : ∀ j ∈ r.joints, urdfKind j.type ≠ none) (ha : ∀ j ∈ r.joints, AnglesLe A j.origin)
    (hlo : ∀ l ∈ r.links, l.origin = none) (fuel : ℕ) (hf : r.links.length ≤ fuel) :
    ∃ f, buildRootFl L fuel r = .ok f ∧ f.name = root ∧ (f.joint.jtype = .fixed ∧ f.joint.offset = none) ∧
      ((preorder f).map Frame.name).Perm (r.links.map Lnk.name) ∧
      (∀ g ∈ preorder f, g.children.map Frame.name = (r.joints.filter fun j => decide (j.parent = g.name)).map Jnt.child) ∧
      (∀ g ∈ preorder f, g.link.offset = some 1) ∧
      ∀ g ∈ preorder f, g = f ∨ ∃ j ∈ r.joints, g.name = j.child ∧ DeclaredUpTo (410 * ((1 + A) * τ)) (9 * τ) j g.joint := by
  have hc : ∀ j : Jnt, ∃ w : Joint × Link, j ∈ r.joints → convertJointFl L r.linkMap j = .ok w ∧
      DeclaredUpTo (410 * ((1 + A) * τ)) (9 * τ) j w.1 ∧ w.2.offset = some 1 := by
    intro j
    by_cases hj : j ∈ r.joints
    · obtain ⟨w, w1, w2, -, w4⟩ := convertJointFl_ok L hu hκ hγ A0 hA r h.links_nodup j (h.child_mem j hj) (hk j hj) (ha j hj)
      obtain ⟨l, hl, hln⟩ := List.mem_map.1 (h.child_mem j hj)
      obtain ⟨T, t1, t2⟩ := w4 l hl hln
      rw [hlo l hl] at t2
      cases t2
      exact ⟨w, fun _ => ⟨w1, w2, t1⟩⟩
    · exact ⟨(Joint.init, {}), fun h => absurd h hj⟩
  choose mk hmk using hc
  obtain ⟨lr, hlr, hlrn⟩ := List.mem_map.1 h.root_mem
  obtain ⟨w, T, w1, w2, w3, w4⟩ := convertLinkFl_total L lr
  rw [hlo lr hlr] at w3
  cases w3
  have hrec := buildRecurse_ok h (mkE := convertJointFl L r.linkMap) (mk := mk) (fun j hj => (hmk j hj).1) fuel root 0
    .here (by simpa using hf)
  have hg : r.linkMap.get? root = some lr := hlrn ▸ linkMap_get r h.links_nodup lr hlr
  obtain ⟨h1, h2, h3, h4⟩ := pureBuild_tree h mk fuel (by simpa using hf) w (Joint.initFl L) _ rfl
  refine ⟨_, ?_, rfl, ⟨rfl, rfl⟩, h1, h2, ?_, ?_⟩
  · simp only [buildRootFl, rootName_tree h hne, ok_bind, hg, w1, hlrn, hrec]
    rfl
  · intro g hg
    rcases h4 g hg with rfl | ⟨j, hj, e1, e2, e3⟩
    · exact w4
    · rw [e3]; exact (hmk j hj).2.2
  · intro g hg
    rcases h4 g hg with rfl | ⟨j, hj, e1, e2, e3⟩
    · exact .inl rfl
    · exact .inr ⟨j, hj, e1, e2 ▸ (hmk j hj).2.1⟩

end

/-- the robot of the description, on the frames of a tree with its names -/
noncomputable def Spec.docIdeal (r : Robot) : Ideal :=
  let j (f : Frame) := r.joints.find? fun j => decide (j.child = f.name)
  ⟨fun _ => 1, fun f => ((j f).map fun j => originT j.origin).getD 1,
    fun f => (((j f).bind Jnt.axis).map fun a => (vlen a)⁻¹ • a).getD 0⟩

theorem find_child {r : Robot} {root : Name} (h : UrdfTree r root) {j : Jnt} (hj : j ∈ r.joints) {f : Frame} (hf : f.name = j.child) :
    (r.joints.find? fun j => decide (j.child = f.name)) = some j := by
  cases hx : r.joints.find? fun j => decide (j.child = f.name) with
  | none => exact absurd (by simp [hf]) (List.find?_eq_none.1 hx j hj)
  | some j' =>
    have h1 := List.mem_of_find?_eq_some hx
    have h2 := List.find?_some hx
    rw [chi_inj h.one_parent h1 hj (by simpa [hf] using h2)]

theorem find_root {r : Robot} {root : Name} (h : UrdfTree r root) {f : Frame} (hf : f.name = root) :
    (r.joints.find? fun j => decide (j.child = f.name)) = none :=
  List.find?_eq_none.2 fun j hj => by simpa [hf] using h.root_top j hj

theorem colVal_name {f : Frame} {B : ℕ} (F : Option Name → Fin B → ℝ) {g : Frame} (hg : g ∈ preorder f) (hm : Moving g.joint) (b : Fin B) :
    colVal f (((movingJoints f).map Joint.name).map F) b g.joint = F g.joint.name b := by
  have hmem : g.joint.name ∈ (movingJoints f).map Joint.name :=
    List.mem_map.2 ⟨g.joint, mem_movingJoints.2 ⟨hm, g, hg, rfl⟩, rfl⟩
  have hlt := List.idxOf_lt_length_iff.2 hmem
  unfold colVal column
  rw [List.getD_eq_getElem _ _ (by rw [List.length_map]; exact hlt), List.getElem_map, List.getElem_idxOf hlt]

/-- **C135**: from the file to the pose: a description is loaded in one arithmetic (single precision) and forward kinematics
computed in another (single or double).  The pose of every link is the pose that the description gives it, up to a multiple
of the coarser unit roundoff, the number of links on the way and the size of the declared angles. -/
theorem C135_end_to_end (L : TrigMachine) (m : Machine) {τ A : ℝ} (hu : L.u ≤ τ) (hκ : L.κ ≤ τ) (hγ : L.γ ≤ 5 * τ)
    (mu : m.u ≤ τ) (mκ : m.κ ≤ τ) (mγ : m.γ ≤ 5 * τ) (A0 : 0 ≤ A) (hA : (1 + A) * τ ≤ 1 / 1000)
    (r : Robot) (root : Name) (h : UrdfTree r root) (hne : r.joints ≠ []) (hn : GoodNames r)
    (hk : ∀ j ∈ r.joints, urdfKind j.type ≠ none) (ha : ∀ j ∈ r.joints, AnglesLe A j.origin)
    (hax : ∀ j ∈ r.joints, urdfKind j.type ≠ some .fixed → ∃ a, j.axis = some a ∧ a ≠ 0)
    (hlo : ∀ l ∈ r.links, l.origin = none) (fuel : ℕ) (hf : r.links.length ≤ fuel) :
    ∃ f, buildRootFl L fuel r = .ok f ∧ ∀ (B : ℕ) (val : Fin B → Name → ℝ),
      ∃ d, forwardKinematicsFl m f ((Chain.initFl m f).getJointParameterNames.map fun n b => val b (n.getD [])) = .ok d ∧
        ∀ l ∈ r.links, ∃ T, d.get? l.name = some T ∧ ∀ b P len depth, Posed r root (val b) P len depth →
          depth l.name * (1400 * ((1 + A) * τ)) ≤ 1 →
          Within (2800 * depth l.name * ((1 + A) * τ)) (len l.name) (T b) (P l.name) := by
  have h0 : 0 ≤ τ := L.u_nonneg.trans hu
  have hAτ := mul_nonneg A0 h0
  obtain ⟨f, f1, f2, f3, f4, f5, f6, f7⟩ := C135_load L hu hκ hγ A0 hA r root h hne hk ha hlo fuel hf
  refine ⟨f, f1, fun B val => ?_⟩
  have hnames : ((preorder f).map Frame.name).Nodup := f4.nodup_iff.2 h.links_nodup
  have hmov : ∀ g ∈ preorder f, Moving g.joint → ∃ j ∈ r.joints, g.name = j.child ∧
      DeclaredUpTo (410 * ((1 + A) * τ)) (9 * τ) j g.joint := by
    intro g hg hm
    rcases f7 g hg with rfl | h'
    · exact absurd f3.1 hm
    · exact h'
  have hw : WF f := by
    refine ⟨hnames, ?_, ?_⟩
    · intro g hg
      obtain ⟨l, hl, e⟩ := List.mem_map.1 (f4.mem_iff.1 (List.mem_map_of_mem hg))
      exact e ▸ hn.links l hl
    · have : movingJoints f = ((preorder f).filter fun g => decide (Moving g.joint)).map Frame.joint := by
        unfold movingJoints; rw [List.filter_map]; rfl
      rw [this, List.map_map]
      refine List.Nodup.map_on ?_ ((List.Nodup.of_map _ hnames).filter _)
      intro a ha b hb e
      obtain ⟨ha, ma⟩ := List.mem_filter.1 ha
      obtain ⟨hb, mb⟩ := List.mem_filter.1 hb
      obtain ⟨ja, hja, ea, da⟩ := hmov a ha (by simpa using ma)
      obtain ⟨jb, hjb, eb, db⟩ := hmov b hb (by simpa using mb)
      have e' : some ja.name = some jb.name := by rw [← da.name, ← db.name]; exact e
      have := List.inj_on_of_nodup_map hn.joints hja hjb (by simpa using e')
      subst this
      exact List.inj_on_of_nodup_map hnames ha hb (by rw [ea, eb])
  have hI : ∀ g ∈ preorder f, StoredAs (410 * ((1 + A) * τ)) (9 * τ) (docIdeal r) g := by
    intro g hg
    have hδ : 0 ≤ 410 * ((1 + A) * τ) := by nlinarith
    have hlo : Within (410 * ((1 + A) * τ)) (vlen (posPart ((docIdeal r).lo g))) (g.link.offset.getD 1) ((docIdeal r).lo g) := by
      rw [f6 g hg]
      exact (within_refl isRigid_one).mono hδ le_rfl
    rcases f7 g hg with rfl | ⟨j, hj, e, dj⟩
    · refine ⟨hlo, ?_, fun hm => absurd f3.1 hm, fun hm => absurd f3.1 hm⟩
      simp only [docIdeal, find_root h f2, f3.2]
      exact (within_refl isRigid_one).mono hδ le_rfl
    · have hfc := find_child h hj e
      have hmv : Moving g.joint → ∃ a, j.axis = some a ∧ a ≠ 0 := fun hm =>
        hax j hj (by rw [dj.kind]; exact fun h' => hm (Option.some.inj h'))
      refine ⟨hlo, ?_, fun hm => ?_, fun hm i => ?_⟩
      · simp only [docIdeal, hfc]
        obtain ⟨T, t1, t2⟩ := dj.offset
        rw [t1]; exact t2
      · obtain ⟨a, a1, a2⟩ := hmv hm
        simp only [docIdeal, hfc, Option.bind_some, a1, Option.map_some, Option.getD_some]
        rw [← normalizeAxis_eq]
        exact (axis_scaled a a2).1
      · obtain ⟨a, a1, a2⟩ := hmv hm
        simp only [docIdeal, hfc, Option.bind_some, a1, Option.map_some, Option.getD_some]
        exact dj.axis a a1 a2 i
  have enames : (Chain.initFl m f).getJointParameterNames = (movingJoints f).map Joint.name := jointParamNames_eq f
  rw [enames]
  set F : Option Name → Fin B → ℝ := fun n b => val b (n.getD []) with hF
  obtain ⟨d, d1, -, d3⟩ := C102_rounding m (δ := 410 * ((1 + A) * τ)) (τ := 9 * τ) (by linarith) (by linarith) (by nlinarith) f hw
    (((movingJoints f).map Joint.name).map F) (by simp) (docIdeal r) hI
  refine ⟨d, d1, fun l hl => ?_⟩
  obtain ⟨g, hg, hgl⟩ := List.mem_map.1 (f4.mem_iff.2 (List.mem_map_of_mem hl))
  obtain ⟨p, p1, p2⟩ := exists_path hg
  obtain ⟨T, t1, t2⟩ := d3 p g p1 p2
  refine ⟨T, hgl ▸ t1, fun b P len depth hP hb => ?_⟩
  have key : ∀ p, IsPath f p → ∀ g, p.getLast? = some g →
      (docIdeal r).pose (colVal f (((movingJoints f).map Joint.name).map F) b) p = P g.name ∧
      (docIdeal r).reach (colVal f (((movingJoints f).map Joint.name).map F) b) p = len g.name ∧ p.length = depth g.name := by
    intro p hp
    induction hp with
    | single =>
      intro g hg
      simp only [List.getLast?_singleton, Option.some.injEq] at hg
      subst hg
      rw [f2, hP.root_pose, hP.root_len, hP.root_depth]
      refine ⟨?_, ?_, rfl⟩
      · simp [Ideal.pose, docIdeal, find_root h f2, Ideal.motion, f3.1]
      · simp [Ideal.reach, docIdeal, find_root h f2, travel, f3.1, posPart, vlen]
    | snoc p g c hp hc ih =>
      intro c' hc'
      have : c' = c := by simpa using hc'.symm
      subst this
      obtain ⟨i1, i2, i3⟩ := ih g (by simp)
      have hgm : g ∈ preorder f := path_last_mem hp (by simp)
      have hcm : c' ∈ preorder f := preorder_children hgm hc
      have hcn : c'.name ∈ (r.joints.filter fun j => decide (j.parent = g.name)).map Jnt.child :=
        f5 g hgm ▸ List.mem_map_of_mem hc
      obtain ⟨j, hj, e⟩ := List.mem_map.1 hcn
      obtain ⟨hj, hjp⟩ := List.mem_filter.1 hj
      have hjp : j.parent = g.name := by simpa using hjp
      have hd : DeclaredUpTo (410 * ((1 + A) * τ)) (9 * τ) j c'.joint := by
        rcases f7 c' hcm with rfl | ⟨j', hj', e', dj⟩
        · exact absurd (e.trans f2) (h.root_top j hj)
        · have : j' = j := chi_inj h.one_parent hj' hj (by rw [← e', e])
          subst this; exact dj
      have hfc := find_child h hj e.symm
      have hcol : Moving c'.joint → colVal f (((movingJoints f).map Joint.name).map F) b c'.joint = val b j.name := fun hm => by
        rw [colVal_name F hcm hm b, hd.name]; rfl
      have hmot : (docIdeal r).motion c' (colVal f (((movingJoints f).map Joint.name).map F) b c'.joint) = urdfMotion j (val b j.name) := by
        have hk' := hd.kind
        unfold Ideal.motion urdfMotion
        cases ht : c'.joint.jtype with
        | fixed => simp [hk', ht]
        | revolute =>
          have hm : Moving c'.joint := by simp [Moving, ht]
          obtain ⟨a, a1, -⟩ := hax j hj (by rw [hk', ht]; simp)
          rw [hcol hm]
          simp [hk', ht, a1, docIdeal, hfc]
        | prismatic =>
          have hm : Moving c'.joint := by simp [Moving, ht]
          obtain ⟨a, a1, -⟩ := hax j hj (by rw [hk', ht]; simp)
          rw [hcol hm]
          simp [hk', ht, a1, docIdeal, hfc]
      have htr : travel c' (colVal f (((movingJoints f).map Joint.name).map F) b c'.joint) = urdfTravel j (val b j.name) := by
        have hk' := hd.kind
        unfold travel urdfTravel
        cases ht : c'.joint.jtype with
        | fixed => simp [hk', ht]
        | revolute => simp [hk', ht]
        | prismatic =>
          have hm : Moving c'.joint := by simp [Moving, ht]
          rw [hcol hm]
          simp [hk', ht]
      have hjo : (docIdeal r).jo c' = originT j.origin := by simp [docIdeal, hfc]
      have hlo' : (docIdeal r).lo c' = 1 := rfl
      rw [← e, hP.pose j hj, hP.len j hj, hP.depth j hj, hjp]
      refine ⟨?_, ?_, by rw [List.length_append, i3]; rfl⟩
      · rw [Ideal.pose, List.map_append, List.prod_append]
        rw [Ideal.pose] at i1
        rw [i1]
        rw [List.map_singleton, List.prod_singleton, hmot, hjo, hlo', one_mul]
      · rw [Ideal.reach, List.map_append, List.sum_append]
        rw [Ideal.reach] at i2
        rw [i2]
        rw [List.map_singleton, List.sum_singleton, htr, hjo, hlo']
        simp [posPart, vlen]
  obtain ⟨k1, k2, k3⟩ := key p p1 g p2
  have hw' := t2 b
  rw [k1, k2, hgl] at hw'
  have hx : 2 * (410 * ((1 + A) * τ)) + 54 * (9 * τ) + 9 * m.γ ≤ 1400 * ((1 + A) * τ) := by nlinarith
  have hb' := pow_sub_one_le (x := 1400 * ((1 + A) * τ)) (by positivity) (by have := m.γ_nonneg; positivity)
    ((factor_le_exp (by positivity) (by positivity) m.γ_nonneg).trans (Real.exp_le_exp.2 hx)) (n := p.length)
    (by rw [k3, hgl]; exact hb)
  exact hw'.mono (hb'.trans (le_of_eq (by rw [k3, hgl]; ring))) le_rfl

/-- what the recursion gives `k` joints below the root -/
noncomputable def posedAt (r : Robot) (val : Name → ℝ) : ℕ → Name → M4 × ℝ
  | 0, _ => (1, 0)
  | k + 1, n => match r.joints.find? fun j => decide (j.child = n) with
    | none => (1, 0)
    | some j => ((posedAt r val k j.parent).1 * (originT j.origin * urdfMotion j (val j.name)),
        (posedAt r val k j.parent).2 + (vlen (posPart (originT j.origin)) + urdfTravel j (val j.name)))

/-- **C135**: a description that is a tree says where its links are. -/
theorem C135_posed (r : Robot) (root : Name) (h : UrdfTree r root) (val : Name → ℝ) :
    ∃ P len depth, Posed r root val P len depth := by
  classical
  let k : Name → ℕ := fun n => if hn : ∃ k, Reach Jnt.parent Jnt.child r.joints root k n then hn.choose else 0
  have hk : ∀ n i, Reach Jnt.parent Jnt.child r.joints root i n → k n = i := by
    intro n i hi
    have hn : ∃ k, Reach Jnt.parent Jnt.child r.joints root k n := ⟨i, hi⟩
    simp only [k, dif_pos hn]
    exact Reach.depth_unique h.one_parent h.root_top hn.choose_spec hi
  have hj : ∀ j ∈ r.joints, k j.child = k j.parent + 1 := by
    intro j hj
    obtain ⟨i, hi⟩ := h.reachable _ (h.child_mem j hj)
    have : ∃ i', Reach Jnt.parent Jnt.child r.joints root i' j.parent := by
      generalize hc : j.child = c at hi
      cases hi with
      | here => exact absurd hc (h.root_top j hj)
      | step i' j' hj' hi' =>
        have := chi_inj h.one_parent hj hj' hc
        subst this
        exact ⟨i', hi'⟩
    obtain ⟨i', hi'⟩ := this
    rw [hk _ _ hi', hk _ _ (.step i' j hj hi')]
  have hfind : ∀ j ∈ r.joints, (r.joints.find? fun j' => decide (j'.child = j.child)) = some j := fun j hj =>
    find_child h hj (f := .mk j.child {} Joint.init []) rfl
  have hroot : k root = 0 := hk root 0 .here
  refine ⟨fun n => (posedAt r val (k n) n).1, fun n => (posedAt r val (k n) n).2, fun n => k n + 1, ?_, ?_, ?_, ?_, ?_, ?_⟩
  · simp only [hroot]; rfl
  · simp only [hroot]; rfl
  · simp only [hroot]
  · intro j h'
    simp only [hj j h', posedAt, hfind j h']
  · intro j h'
    simp only [hj j h', posedAt, hfind j h']
  · intro j h'
    simp only [hj j h']

/-- **C135**: `quaternion_from_euler` and `quaternion_to_matrix` for each of the 24 axis sequences: the matrix is the product of
the elementary rotations, up to a multiple of the unit roundoff and of the size of the angles. -/
theorem C135_from_euler (m : Machine) {τ A : ℝ} (hu : m.u ≤ τ) (hκ : m.κ ≤ τ) (hA : (1 + A) * τ ≤ 1 / 1000)
    (rotating : Bool) (a b c : XYZ) (hab : a ≠ b) (hbc : b ≠ c) {e e' : V3} (he : ∀ i, |e i| ≤ A) (he' : ∀ i, |e' i - e i| ≤ τ * |e i|) :
    ∃ q, quaternionFromEulerFl m e' (axesName rotating a b c) = .ok q ∧
      ∀ i j, |quaternionToMatrixFl m q i j - seqRot rotating a b c e i j| ≤ 140 * ((1 + A) * τ) := by
  have h0 : 0 ≤ τ := m.u_nonneg.trans hu
  have A0 := (abs_nonneg _).trans (he 0)
  have hAτ := mul_nonneg A0 h0
  obtain ⟨q, w, h1, h2, h3⟩ := C41_quaternion_from_euler rotating a b c hab hbc e
  obtain ⟨q', h4, h5⟩ := quaternionFromEulerFl_near m hu hκ (by nlinarith) he
    (fun i => (he' i).trans (mul_le_mul_of_nonneg_left (he i) h0)) h1
  refine ⟨q', h4, fun i j => ?_⟩
  obtain ⟨hpos, hl⟩ := quaternionToMatrix_lip (by nlinarith) h2 h5
  have x := quaternionToMatrixFl_near m hu h0 (by nlinarith) hpos i j
  have y := hl i j
  have := abs_add_le (quaternionToMatrixFl m q' i j - quaternionToMatrix q' i j) (quaternionToMatrix q' i j - quaternionToMatrix q i j)
  rw [sub_add_sub_cancel] at this
  rw [← h3]
  nlinarith

theorem binary_u (q : ℕ) (hq : 1 ≤ q) : (binary q hq).u = 1 / 2 ^ q ∧ (binary q hq).κ = 1 / 2 ^ q := by
  have : (2 : ℝ) ^ (-(q : ℤ)) = 1 / 2 ^ q := by rw [zpow_neg, zpow_natCast, one_div]
  exact ⟨this, this⟩

theorem binary_γ (q : ℕ) (hq : 10 ≤ q) : (binary q (by omega)).γ ≤ 5 * (1 / 2 ^ q) := by
  have h0 : (0 : ℝ) ≤ 1 / 2 ^ q := by positivity
  have h1 : (1 : ℝ) / 2 ^ q ≤ 1 / 1024 := by
    rw [show (1024 : ℝ) = 2 ^ 10 by norm_num]
    exact one_div_le_one_div_of_le (by positivity) (pow_le_pow_right₀ (by norm_num) hq)
  have hγ : (binary q (by omega)).γ = (1 + 1 / 2 ^ q) ^ 4 - 1 := by
    rw [← (binary_u q (by omega)).1]; rfl
  rw [hγ]
  generalize (1 : ℝ) / 2 ^ q = u at h0 h1
  have : u * u ≤ u * (1 / 1024) := mul_le_mul_of_nonneg_left h1 h0
  have h3 : u ^ 3 ≤ u * u := by nlinarith [mul_nonneg h0 h0]
  have h4 : u ^ 4 ≤ u * u := by nlinarith [mul_nonneg h0 h0, pow_nonneg h0 3]
  nlinarith

/-- **C135**: loaded in `float32` and evaluated in `float32` or `float64` (`q = 24`, `q = 53`), angles up to 4: the pose of a link
`n` frames from the root is off by at most `n / 1000`, for robots with up to 2000 links on a path. -/
theorem C135_single (q : ℕ) (hq : 24 ≤ q) (r : Robot) (root : Name) (h : UrdfTree r root) (hne : r.joints ≠ []) (hn : GoodNames r)
    (hk : ∀ j ∈ r.joints, urdfKind j.type ≠ none) (ha : ∀ j ∈ r.joints, AnglesLe 4 j.origin)
    (hax : ∀ j ∈ r.joints, urdfKind j.type ≠ some .fixed → ∃ a, j.axis = some a ∧ a ≠ 0)
    (hlo : ∀ l ∈ r.links, l.origin = none) (fuel : ℕ) (hf : r.links.length ≤ fuel) :
    ∃ f, buildRootFl (binaryTrig 24 (by norm_num)) fuel r = .ok f ∧ ∀ (B : ℕ) (val : Fin B → Name → ℝ),
      ∃ d, forwardKinematicsFl (binary q (by omega)) f
          ((Chain.init f).getJointParameterNames.map fun n b => val b (n.getD [])) = .ok d ∧
        ∀ l ∈ r.links, ∃ T, d.get? l.name = some T ∧ ∀ b P len depth, Posed r root (val b) P len depth → depth l.name ≤ 2000 →
          Within (depth l.name / 1000) (len l.name) (T b) (P l.name) := by
  have hq' : (1 : ℝ) / 2 ^ q ≤ 1 / 2 ^ 24 := one_div_le_one_div_of_le (by positivity) (pow_le_pow_right₀ (by norm_num) hq)
  obtain ⟨hu, hκ⟩ := binary_u 24 (by norm_num)
  obtain ⟨mu, mκ⟩ := binary_u q (by omega)
  obtain ⟨f, f1, f2⟩ := C135_end_to_end (binaryTrig 24 (by norm_num)) (binary q (by omega)) (τ := 1 / 2 ^ 24) (A := 4) hu.le hκ.le
    (binary_γ 24 (by norm_num)) (mu.le.trans hq') (mκ.le.trans hq') ((binary_γ q (by omega)).trans (by linarith)) (by norm_num)
    (by norm_num) r root h hne hn hk ha hax hlo fuel hf
  refine ⟨f, f1, fun B val => ?_⟩
  obtain ⟨d, d1, d2⟩ := f2 B val
  refine ⟨d, d1, fun l hl => ?_⟩
  obtain ⟨T, t1, t2⟩ := d2 l hl
  refine ⟨T, t1, fun b P len depth hP hd => ?_⟩
  have hd' : (depth l.name : ℝ) ≤ 2000 := by exact_mod_cast hd
  have hd0 : (0 : ℝ) ≤ depth l.name := by positivity
  refine (t2 b P len depth hP (by norm_num; linarith)).mono ?_ le_rfl
  norm_num; linarith

/-- the example arm, loaded in `float32` and evaluated in `float64`: the tip, two joints below the root -/
example (val : Name → ℝ) : ∃ f d T, ∃ P : Name → M4, ∃ len, buildRootFl (binaryTrig 24 (by norm_num)) 900 exRobot = .ok f ∧
    forwardKinematicsFl (binary 53 (by norm_num)) f
      ((Chain.init f).getJointParameterNames.map fun n (_ : Fin 1) => val (n.getD [])) = .ok d ∧
    d.get? n!"tip" = some T ∧ P n!"base" = 1 ∧
    P n!"arm" = P n!"base" * (rpyPose ![1, 2, 3] ![1, 2, 3] * mkHom (rotAbout ((vlen ![0, 0, 1])⁻¹ • ![0, 0, 1]) (val n!"j1")) 0) ∧
    P n!"tip" = P n!"arm" * (rpyPose ![0, 0, 1] ![0, 0, 0] * mkHom 1 (val n!"j2" • (vlen ![0, 2, 0])⁻¹ • ![0, 2, 0])) ∧
    Within (3 / 1000) len (T 0) (P n!"tip") := by
  obtain ⟨P, len, depth, hP⟩ := C135_posed exRobot n!"base" exRobot_tree val
  obtain ⟨f, f1, f2⟩ := C135_single 53 (by norm_num) exRobot n!"base" exRobot_tree (by simp [exRobot])
    ⟨by simp [exRobot], by simp [exRobot]⟩ (by simp [exRobot, urdfKind])
    (by
      simp only [exRobot, List.mem_cons, List.not_mem_nil, or_false]
      rintro j (rfl | rfl | rfl) p hp <;> cases hp
      · intro i; fin_cases i <;> simp
      · intro i; fin_cases i <;> norm_num)
    (by
      simp only [exRobot, List.mem_cons, List.not_mem_nil, or_false]
      rintro j (rfl | rfl | rfl) hk
      · exact ⟨_, rfl, fun h0 => by simpa using congrFun h0 1⟩
      · simp [urdfKind] at hk
      · exact ⟨_, rfl, fun h0 => by simpa using congrFun h0 2⟩)
    (by simp [exRobot]) 900 (by simp [exRobot])
  obtain ⟨d, d1, d2⟩ := f2 1 fun _ => val
  obtain ⟨T, t1, t2⟩ := d2 ⟨n!"tip", none, [], [], none⟩ (by simp [exRobot])
  have m1 : exRobot.joints[2] ∈ exRobot.joints := by simp [exRobot]
  have m2 : exRobot.joints[0] ∈ exRobot.joints := by simp [exRobot]
  have e1 : depth n!"arm" = depth n!"base" + 1 := hP.depth _ m1
  have e2 : depth n!"tip" = depth n!"arm" + 1 := hP.depth _ m2
  have hd : depth n!"tip" = 3 := by rw [e2, e1, hP.root_depth]
  have hW := t2 0 P len depth hP (by show depth n!"tip" ≤ 2000; rw [hd]; norm_num)
  refine ⟨f, d, T, P, len n!"tip", f1, d1, t1, hP.root_pose, hP.pose _ m1, hP.pose _ m2, ?_⟩
  have : ((depth n!"tip" : ℕ) : ℝ) = 3 := by rw [hd]; norm_num
  rw [← this]
  exact hW

/-- Euler angles in single precision, a sequence with a repeated axis -/
example : ∃ q, quaternionFromEulerFl (binary 24 (by norm_num)) ![1, 2, 3] ['r', 'z', 'x', 'z'] = .ok q ∧
    ∀ i j, |quaternionToMatrixFl (binary 24 (by norm_num)) q i j - (elem .z 1 * elem .x 2 * elem .z 3) i j| ≤ 1 / 10000 := by
  obtain ⟨hu, hκ⟩ := binary_u 24 (by norm_num)
  obtain ⟨q, h1, h2⟩ := C135_from_euler (binary 24 (by norm_num)) (τ := 1 / 2 ^ 24) (A := 3) hu.le hκ.le (by norm_num) true .z .x .z
    (by decide) (by decide) (e := ![1, 2, 3]) (e' := ![1, 2, 3]) (by intro i; fin_cases i <;> norm_num) (by intro i; simp)
  exact ⟨q, h1, fun i j => (h2 i j).trans (by norm_num)⟩

end PK
