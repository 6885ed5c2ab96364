import Verif.Lemmas.LoadRound2

/-!
# C136: SDF and MJCF descriptions, from the file to the pose in floating-point arithmetic
-/

namespace PK
open Spec Matrix

theorem wf_of {f : Frame} (hnames : ((preorder f).map Frame.name).Nodup)
    (hnl : ∀ g ∈ preorder f, g.name.head? ≠ some '\n' ∧ g.name.getLast? ≠ some '\n')
    (hinj : ∀ a ∈ preorder f, ∀ b ∈ preorder f, Moving a.joint → Moving b.joint → a.joint.name = b.joint.name → a.name = b.name) : WF f := by
  refine ⟨hnames, hnl, ?_⟩
  have : movingJoints f = ((preorder f).filter fun g => decide (Moving g.joint)).map Frame.joint := by
    unfold movingJoints; rw [List.filter_map]; rfl
  rw [this, List.map_map]
  refine List.Nodup.map_on ?_ ((List.Nodup.of_map _ hnames).filter _)
  intro a ha b hb e
  obtain ⟨ha, ma⟩ := List.mem_filter.1 ha
  obtain ⟨hb, mb⟩ := List.mem_filter.1 hb
  exact List.inj_on_of_nodup_map hnames ha hb (hinj a ha b hb (by simpa using ma) (by simpa using mb) e)

/-! ## SDF -/

namespace Sdf

theorem convertTransformFl_total (m : Machine) (o : Option Pose) : ∃ T, convertTransformFl m o = .ok T := by
  cases o with
  | none => exact ⟨_, rfl⟩
  | some p => exact ⟨_, rfl⟩

theorem convertVisualFl_total (m : Machine) (v : Vis) : ∃ w, convertVisualFl m v = .ok w := by
  obtain ⟨T, hT⟩ := convertTransformFl_total m v.pose
  unfold convertVisualFl
  rw [hT, ok_bind]
  split
  · exact ⟨_, rfl⟩
  · exact ⟨_, rfl⟩

theorem convertLinkFl_total (m : Machine) (l : Lnk) : ∃ w, convertLinkFl m l = .ok w ∧ w.name = l.name ∧ w.offset = some 1 := by
  choose w hw using convertVisualFl_total m
  exact ⟨⟨l.name, some 1, l.visuals.map w⟩, by simp only [convertLinkFl, mapM_ok_map _ w _ fun v _ => hw v, ok_bind]; rfl, rfl, rfl⟩

section
variable (L : TrigMachine) {τ A : ℝ} (hu : L.u ≤ τ) (hκ : L.κ ≤ τ) (hγ : L.γ ≤ 5 * τ) (A0 : 0 ≤ A) (hA : (1 + A) * τ ≤ 1 / 1000)
include hu hκ hγ A0 hA

theorem convertJointFl_ok {m : Model} {names : List Name} {root : Name} (h : SdfTree m names root)
    (ha : ∀ l ∈ m.links, SdfAnglesLe A l.pose) (j : Jnt) (hj : j ∈ m.joints) :
    ∃ w : Joint × Link, convertJointFl L m.linkMap j = .ok w ∧ w.2.offset = some 1 ∧
      ∀ p ∈ m.links, ∀ c ∈ m.links, p.name = some j.parent → c.name = some j.child →
        SdfDeclaredUpTo (1860 * ((1 + A) * τ)) (9 * τ) (sdfPoseZYX p.pose) (sdfPoseZYX c.pose) j w.1 := by
  have h0 : 0 ≤ τ := L.u_nonneg.trans hu
  have h1 : τ ≤ 1 / 1000 := by nlinarith [mul_nonneg A0 h0]
  obtain ⟨p, hp, ep, hp'⟩ := lookup_ok h (h.tree.parent_mem j hj)
  obtain ⟨c, hc, ec, hc'⟩ := lookup_ok h (h.tree.child_mem j hj)
  obtain ⟨w0, w1, w2, w3, w4⟩ := convertJoint_ok h j hj
  obtain ⟨k, hk⟩ := Option.ne_none_iff_exists'.1 (h.kinds j hj)
  obtain ⟨l, l1, l2, l3⟩ := convertLinkFl_total L.toMachine c
  obtain ⟨X, hX, wX⟩ := sdfTransformFl_ok L hu hκ hγ A0 hA (ha p hp)
  obtain ⟨Y, hY, wY⟩ := sdfTransformFl_ok L hu hκ hγ A0 hA (ha c hc)
  -- the limits are those of the exact loader
  have hlim : ∃ lim, convertLimit k j.limit = .ok lim ∧
      (k ≠ .fixed → lim = j.limit.bind fun m => m.lower.bind fun l => m.upper.map fun u => (l, u)) := by
    have hb := h.bounds j hj
    rw [hk] at hb
    unfold convertLimit
    split
    · next e => exact ⟨_, rfl, fun _ => by rw [e]; rfl⟩
    · next l u e => exact ⟨_, rfl, fun _ => by rw [e]; rfl⟩
    · next x e2 e1 =>
      cases k
      case fixed => exact ⟨_, rfl, fun h => absurd rfl h⟩
      all_goals
        obtain ⟨b1, b2⟩ := hb (by simp) x e1
        obtain ⟨l, hl⟩ := Option.ne_none_iff_exists'.1 b1
        obtain ⟨u, hu⟩ := Option.ne_none_iff_exists'.1 b2
        exact absurd (by cases x; simp_all) (e2 l u)
  obtain ⟨lim, hlim, hlim'⟩ := hlim
  refine ⟨(Joint.initFl L j.name (some (L.mul (invertMatrixFl L.toMachine X) Y)) k (some j.axis) lim, l), ?_, l3, ?_⟩
  · simp only [convertJointFl, hp', hc', ok_bind, hX, hY, jointTypeMap_ok hk, hlim, l1]
    rfl
  · intro p' hp1 c' hc1 e1 e2
    rw [link_unique h hp1 hp (e1.trans ep.symm), link_unique h hc1 hc (e2.trans ec.symm)]
    refine ⟨rfl, hk, ⟨_, rfl, sdfOffset_ok L hu hκ hγ A0 hA wX wY⟩, fun hne i => ?_, fun hm => hlim' hm⟩
    simp only [Joint.initFl]
    rw [← normalizeAxis_eq]
    exact normalizeAxisFl_near L hu hκ hγ h1 hne i

/-- **C136**: an SDF model is stored in single precision as its declared tree: the root at its pose, every joint with the offset
between the poses of its two links up to a multiple of the unit roundoff and of the distances of the links from the origin. -/
theorem C136_sdf_load (m : Model) (names : List Name) (root : Name) (h : SdfTree m names root) (hne : m.joints ≠ [])
    (ha : ∀ l ∈ m.links, SdfAnglesLe A l.pose) (fuel : ℕ) (hf : m.links.length ≤ fuel) :
    ∃ f, buildRootFl L fuel m = .ok f ∧ f.name = root ∧ f.joint.jtype = .fixed ∧
      (∀ l ∈ m.links, l.name = some root → ∃ T, f.joint.offset = some T ∧
        Within (300 * ((1 + A) * τ)) (vlen (posPart (sdfPoseZYX l.pose))) T (sdfPoseZYX l.pose)) ∧
      ((preorder f).map Frame.name).Perm names ∧
      (∀ g ∈ preorder f, g.children.map Frame.name = (m.joints.filter fun j => decide (j.parent = g.name)).map Jnt.child) ∧
      (∀ g ∈ preorder f, g.link.offset = some 1) ∧
      ∀ g ∈ preorder f, g = f ∨ ∃ j ∈ m.joints, g.name = j.child ∧
        ∀ p ∈ m.links, ∀ c ∈ m.links, p.name = some j.parent → c.name = some j.child →
          SdfDeclaredUpTo (1860 * ((1 + A) * τ)) (9 * τ) (sdfPoseZYX p.pose) (sdfPoseZYX c.pose) j g.joint := by
  have hc : ∀ j : Jnt, ∃ w : Joint × Link, j ∈ m.joints → convertJointFl L m.linkMap j = .ok w ∧ w.2.offset = some 1 ∧
      ∀ p ∈ m.links, ∀ c ∈ m.links, p.name = some j.parent → c.name = some j.child →
        SdfDeclaredUpTo (1860 * ((1 + A) * τ)) (9 * τ) (sdfPoseZYX p.pose) (sdfPoseZYX c.pose) j w.1 := by
    intro j
    by_cases hj : j ∈ m.joints
    · obtain ⟨w, hw⟩ := convertJointFl_ok L hu hκ hγ A0 hA h ha j hj
      exact ⟨w, fun _ => hw⟩
    · exact ⟨(Joint.init, {}), fun h => absurd h hj⟩
  choose mk hmk using hc
  have hlen : names.length = m.links.length := by simpa using (congrArg List.length h.named).symm
  obtain ⟨lr, hlr, elr, hlr'⟩ := lookup_ok h h.tree.root_mem
  obtain ⟨w, w1, w2, w3⟩ := convertLinkFl_total L.toMachine lr
  obtain ⟨X, hX, wX⟩ := sdfTransformFl_ok L hu hκ hγ A0 hA (ha lr hlr)
  have hrec := buildRecurse_ok h.tree (mkE := convertJointFl L m.linkMap) (mk := mk) (fun j hj => (hmk j hj).1) fuel root 0
    .here (by simpa [hlen] using hf)
  obtain ⟨h1, h2, h3, h4⟩ := pureBuild_tree h.tree mk fuel (by simpa [hlen] using hf) w (Joint.initFl L none (some X)) _ rfl
  refine ⟨_, ?_, rfl, rfl, ?_, h1, h2, ?_, ?_⟩
  · simp only [buildRootFl, rootName_tree h.tree hne, ok_bind, hlr', hX, w1, hrec]
    rfl
  · intro l hl e
    rw [link_unique h hl hlr (e.trans elr.symm)]; exact ⟨X, rfl, wX⟩
  · intro g hg
    rcases h4 g hg with rfl | ⟨j, hj, e1, e2, e3⟩
    · exact w3
    · rw [e3]; exact (hmk j hj).2.1
  · intro g hg
    rcases h4 g hg with rfl | ⟨j, hj, e1, e2, e3⟩
    · exact .inl rfl
    · exact .inr ⟨j, hj, e1, e2 ▸ (hmk j hj).2.2⟩

end

/-- the pose of the link called `n` -/
noncomputable def linkPose (m : Model) (n : Name) : M4 :=
  ((m.links.find? fun l => decide (l.name = some n)).map fun l => sdfPoseZYX l.pose).getD 1

theorem linkPose_eq {m : Model} {names : List Name} {root : Name} (h : SdfTree m names root) {l : Lnk} (hl : l ∈ m.links) {n : Name}
    (e : l.name = some n) : linkPose m n = sdfPoseZYX l.pose := by
  unfold linkPose
  cases hx : m.links.find? fun l => decide (l.name = some n) with
  | none => exact absurd (by simp [e]) (List.find?_eq_none.1 hx l hl)
  | some l' =>
    rw [link_unique h (List.mem_of_find?_eq_some hx) hl (by simpa [e] using List.find?_some hx)]; rfl

theorem linkPose_rigid (m : Model) (n : Name) : IsRigid (linkPose m n) := by
  unfold linkPose
  cases m.links.find? fun l => decide (l.name = some n) with
  | none => exact isRigid_one
  | some l => exact sdfPoseZYX_rigid _

/-- **C136**: an SDF model that is a tree says where its links are. -/
theorem C136_sdf_posed (m : Model) (names : List Name) (root : Name) (h : SdfTree m names root) (val : Option Name → ℝ) :
    ∃ P len depth, SdfPosed m root val P len depth := by
  obtain ⟨R, h1, h2⟩ := tree_recursion h.tree (linkPose m root, vlen (posPart (linkPose m root)), 1)
    fun j x => (x.1 * ((linkPose m j.parent)⁻¹ * linkPose m j.child * sdfMotion j (val j.name)),
      x.2.1 + (vlen (posPart (linkPose m j.parent)) + vlen (posPart (linkPose m j.child)) + sdfTravel j (val j.name)), x.2.2 + 1)
  refine ⟨fun n => (R n).1, fun n => (R n).2.1, fun n => (R n).2.2, ?_, ?_⟩
  · intro l hl e
    simp only [h1, linkPose_eq h hl e, and_self]
  · intro j hj p hp c hc e1 e2
    simp only [h2 j hj, linkPose_eq h hp e1, linkPose_eq h hc e2, and_self]

theorem sdfMotion_zero (j : Jnt) : sdfMotion j 0 = 1 := by
  unfold sdfMotion
  split
  · rw [← axisAndAngleToMatrix33_eq_rotAbout, axisAndAngle_zero, mkHom_one]
  · rw [zero_smul, mkHom_one]
  · rfl

/-- **C136**: with all joints at 0 these are the poses of the pose elements. -/
theorem C136_sdf_zero (m : Model) (names : List Name) (root : Name) (h : SdfTree m names root) {P : Name → M4} {len : Name → ℝ}
    {depth : Name → ℕ} (hP : SdfPosed m root (fun _ => 0) P len depth) : ∀ l ∈ m.links, ∀ n, l.name = some n → P n = sdfPoseZYX l.pose := by
  have key : ∀ k n, Reach Jnt.parent Jnt.child m.joints root k n → P n = linkPose m n := by
    intro k n hr
    induction hr with
    | here =>
      obtain ⟨l, hl, e, -⟩ := lookup_ok h h.tree.root_mem
      rw [(hP.root l hl e).1, linkPose_eq h hl e]
    | step k j hj _ ih =>
      obtain ⟨p, hp, ep, -⟩ := lookup_ok h (h.tree.parent_mem j hj)
      obtain ⟨c, hc, ec, -⟩ := lookup_ok h (h.tree.child_mem j hj)
      obtain ⟨o, ho, -⟩ := inverse_compose (sdfPoseZYX p.pose) 1 (sdfPoseZYX_rigid p.pose)
      have hu : IsUnit (sdfPoseZYX p.pose).det := (Matrix.isUnit_iff_isUnit_det _).1 (IsUnit.of_mul_eq_one o ho)
      rw [(hP.step j hj p hp c hc ep ec).1, ih, linkPose_eq h hp ep, linkPose_eq h hc ec, sdfMotion_zero, Matrix.mul_one,
        ← Matrix.mul_assoc, Matrix.mul_nonsing_inv _ hu, Matrix.one_mul]
  intro l hl n e
  obtain ⟨k, hk⟩ := h.tree.reachable n (by
    have : some n ∈ names.map some := by rw [← h.named, ← e]; exact List.mem_map_of_mem hl
    simpa using this)
  rw [key k n hk, linkPose_eq h hl e]

/-- the robot of the description, on the frames of a tree with its names -/
noncomputable def _root_.PK.Spec.sdfIdeal (m : Model) (root : Name) : Ideal :=
  let j (f : Frame) := m.joints.find? fun j => decide (j.child = f.name)
  ⟨fun _ => 1, fun f => ((j f).map fun j => (linkPose m j.parent)⁻¹ * linkPose m j.child).getD (linkPose m root),
    fun f => ((j f).map fun j => (vlen j.axis)⁻¹ • j.axis).getD 0⟩

/-- the lengths that go with its joint offsets -/
noncomputable def sdfLen (m : Model) (root : Name) (f : Frame) : ℝ :=
  ((m.joints.find? fun j => decide (j.child = f.name)).map fun j =>
    vlen (posPart (linkPose m j.parent)) + vlen (posPart (linkPose m j.child))).getD (vlen (posPart (linkPose m root)))

theorem findJ_child {m : Model} {names : List Name} {root : Name} (h : SdfTree m names root) {j : Jnt} (hj : j ∈ m.joints) {f : Frame}
    (hf : f.name = j.child) : (m.joints.find? fun j => decide (j.child = f.name)) = some j := by
  cases hx : m.joints.find? fun j => decide (j.child = f.name) with
  | none => exact absurd (by simp [hf]) (List.find?_eq_none.1 hx j hj)
  | some j' =>
    rw [chi_inj h.tree.one_parent (List.mem_of_find?_eq_some hx) hj (by simpa [hf] using List.find?_some hx)]

theorem findJ_root {m : Model} {names : List Name} {root : Name} (h : SdfTree m names root) {f : Frame} (hf : f.name = root) :
    (m.joints.find? fun j => decide (j.child = f.name)) = none :=
  List.find?_eq_none.2 fun j hj => by simpa [hf] using h.tree.root_top j hj

/-- **C136**: from the SDF file to the pose: a model is loaded in one arithmetic (single precision) and forward kinematics computed
in another.  The pose of every link is the pose that the description gives it, up to a multiple of the coarser unit roundoff, the
number of links on the way and the size of the declared angles. -/
theorem C136_sdf (L : TrigMachine) (fl : Machine) {τ A : ℝ} (hu : L.u ≤ τ) (hκ : L.κ ≤ τ) (hγ : L.γ ≤ 5 * τ)
    (mu : fl.u ≤ τ) (mκ : fl.κ ≤ τ) (mγ : fl.γ ≤ 5 * τ) (A0 : 0 ≤ A) (hA : (1 + A) * τ ≤ 1 / 1000)
    (m : Model) (names : List Name) (root : Name) (h : SdfTree m names root) (hne : m.joints ≠ [])
    (ha : ∀ l ∈ m.links, SdfAnglesLe A l.pose) (hj : (m.joints.map Jnt.name).Nodup)
    (hn : ∀ n ∈ names, n.head? ≠ some '\n' ∧ n.getLast? ≠ some '\n') (hax : ∀ j ∈ m.joints, sdfKind j.type ≠ some .fixed → j.axis ≠ 0)
    (fuel : ℕ) (hf : m.links.length ≤ fuel) :
    ∃ f, buildRootFl L fuel m = .ok f ∧ ∀ (B : ℕ) (val : Fin B → Option Name → ℝ),
      ∃ d, forwardKinematicsFl fl f ((Chain.init f).getJointParameterNames.map fun n b => val b n) = .ok d ∧
        ∀ n ∈ names, ∃ T, d.get? n = some T ∧ ∀ b P len depth, SdfPosed m root (val b) P len depth →
          depth n * (4300 * ((1 + A) * τ)) ≤ 1 →
          Within (8600 * depth n * ((1 + A) * τ)) (len n) (T b) (P n) := by
  have h0 : 0 ≤ τ := L.u_nonneg.trans hu
  have hAτ := mul_nonneg A0 h0
  obtain ⟨f, f1, f2, f3, f4, f5, f6, f7, f8⟩ := C136_sdf_load L hu hκ hγ A0 hA m names root h hne ha fuel hf
  refine ⟨f, f1, fun B val => ?_⟩
  have hnames : ((preorder f).map Frame.name).Nodup := f5.nodup_iff.2 h.tree.links_nodup
  have hdec : ∀ g ∈ preorder f, g ≠ f → ∃ j ∈ m.joints, g.name = j.child ∧
      SdfDeclaredUpTo (1860 * ((1 + A) * τ)) (9 * τ) (linkPose m j.parent) (linkPose m j.child) j g.joint := by
    intro g hg hgf
    rcases f8 g hg with rfl | ⟨j, hj, e, d⟩
    · exact absurd rfl hgf
    · obtain ⟨p, hp, ep, -⟩ := lookup_ok h (h.tree.parent_mem j hj)
      obtain ⟨c, hc, ec, -⟩ := lookup_ok h (h.tree.child_mem j hj)
      refine ⟨j, hj, e, ?_⟩
      rw [linkPose_eq h hp ep, linkPose_eq h hc ec]
      exact d p hp c hc ep ec
  have hmv : ∀ g ∈ preorder f, Moving g.joint → g ≠ f := fun g _ hm e => hm (e ▸ f3)
  have hw : WF f := by
    refine wf_of hnames (fun g hg => hn _ (f5.mem_iff.1 (List.mem_map_of_mem hg))) ?_
    intro a ha b hb ma mb e
    obtain ⟨ja, hja, ea, da⟩ := hdec a ha (hmv a ha ma)
    obtain ⟨jb, hjb, eb, db⟩ := hdec b hb (hmv b hb mb)
    rw [ea, eb, List.inj_on_of_nodup_map hj hja hjb (by rw [← da.name, ← db.name]; exact e)]
  obtain ⟨lr, hlr, elr, -⟩ := lookup_ok h h.tree.root_mem
  have hδ : (0 : ℝ) ≤ 1860 * ((1 + A) * τ) := by nlinarith
  have hI : ∀ g ∈ preorder f, StoredWithin (1860 * ((1 + A) * τ)) (9 * τ) (sdfIdeal m root) 0 (sdfLen m root g) g := by
    intro g hg
    have hlo : Within (1860 * ((1 + A) * τ)) 0 (g.link.offset.getD 1) ((sdfIdeal m root).lo g) := by
      rw [f7 g hg]
      exact (within_refl isRigid_one).mono hδ (by simp [posPart, vlen])
    by_cases hgf : g = f
    · subst hgf
      refine ⟨hlo, ?_, fun hm => absurd f3 hm, fun hm => absurd f3 hm⟩
      obtain ⟨T, t1, t2⟩ := f4 lr hlr elr
      simp only [sdfIdeal, sdfLen, findJ_root h f2, t1, Option.map_none, Option.getD_none, Option.getD_some, linkPose_eq h hlr elr]
      exact t2.mono (by nlinarith) le_rfl
    · obtain ⟨j, hj, e, dj⟩ := hdec g hg hgf
      have hfc := findJ_child h hj e
      have hmv : Moving g.joint → j.axis ≠ 0 := fun hm =>
        hax j hj (by rw [dj.kind]; exact fun h' => hm (Option.some.inj h'))
      refine ⟨hlo, ?_, fun hm => ?_, fun hm i => ?_⟩
      · simp only [sdfIdeal, sdfLen, hfc]
        obtain ⟨T, t1, t2⟩ := dj.offset
        rw [t1]; exact t2
      · simp only [sdfIdeal, hfc, Option.map_some, Option.getD_some]
        rw [← normalizeAxis_eq]
        exact (axis_scaled _ (hmv hm)).1
      · simp only [sdfIdeal, hfc, Option.map_some, Option.getD_some]
        exact dj.axis (hmv hm) i
  have enames : (Chain.init f).getJointParameterNames = (movingJoints f).map Joint.name := jointParamNames_eq f
  rw [enames]
  obtain ⟨d, d1, d2⟩ := tree_within fl (δ := 1860 * ((1 + A) * τ)) (τ := 9 * τ) (by linarith) (by linarith) (by nlinarith) hw hI
    (fun n b => val b n) (x := 4300 * ((1 + A) * τ)) (by nlinarith)
  refine ⟨d, d1, fun n hn => ?_⟩
  obtain ⟨g, hg, hgl⟩ := List.mem_map.1 (f5.mem_iff.2 hn)
  obtain ⟨T, t1, t2⟩ := d2 g hg
  refine ⟨T, hgl ▸ t1, fun b P len depth hP hb => ?_⟩
  have := t2 b P len depth ?_ ?_ (by rw [hgl]; exact hb)
  · rw [hgl] at this
    exact this.mono (le_of_eq (by ring)) le_rfl
  · obtain ⟨r1, r2, r3⟩ := hP.root lr hlr elr
    rw [f2]
    refine ⟨?_, ?_, r3⟩
    · rw [r1]; simp [sdfIdeal, findJ_root h f2, Ideal.motion, f3, linkPose_eq h hlr elr]
    · rw [r2]; simp [sdfLen, findJ_root h f2, travel, f3, linkPose_eq h hlr elr]
  · intro g hg k hk
    have hkm := preorder_children hg hk
    have hkn : k.name ∈ (m.joints.filter fun j => decide (j.parent = g.name)).map Jnt.child := f6 g hg ▸ List.mem_map_of_mem hk
    obtain ⟨j, hj, e⟩ := List.mem_map.1 hkn
    obtain ⟨hj, hjp⟩ := List.mem_filter.1 hj
    have hjp : j.parent = g.name := by simpa using hjp
    have hkf : k ≠ f := fun e' => h.tree.root_top j hj (by rw [e, e', f2])
    obtain ⟨j', hj', e', dj⟩ := hdec k hkm hkf
    obtain rfl : j' = j := chi_inj h.tree.one_parent hj' hj (by rw [← e', e])
    have hfc := findJ_child h hj e'
    obtain ⟨p, hp, ep, -⟩ := lookup_ok h (h.tree.parent_mem j' hj)
    obtain ⟨c, hc, ec, -⟩ := lookup_ok h (h.tree.child_mem j' hj)
    obtain ⟨s1, s2, s3⟩ := hP.step j' hj p hp c hc ep ec
    rw [← e, ← hjp, s1, s2, s3]
    have hk' := dj.kind
    refine ⟨?_, ?_, rfl⟩
    · congr 1
      simp only [sdfIdeal, hfc, Option.map_some, Option.getD_some, Matrix.one_mul, linkPose_eq h hp ep, linkPose_eq h hc ec,
        Ideal.motion, dj.name, sdfMotion, hk']
      cases k.joint.jtype <;> rfl
    · congr 1
      simp only [sdfLen, hfc, Option.map_some, Option.getD_some, zero_add, linkPose_eq h hp ep, linkPose_eq h hc ec,
        travel, dj.name, sdfTravel, hk']
      cases k.joint.jtype <;> simp

/-- **C136**: the stored pose of a visual, for cylinders with the quarter turn of the loader (C27). -/
theorem C136_sdf_visual (L : TrigMachine) {τ A : ℝ} (hu : L.u ≤ τ) (hκ : L.κ ≤ τ) (hγ : L.γ ≤ 5 * τ) (A2 : 2 ≤ A)
    (hA : (1 + A) * τ ≤ 1 / 1000) (v : Vis) (hv : SdfAnglesLe A v.pose) :
    ∃ T, convertVisualFl L.toMachine v = .ok ⟨some T, some v.geometry.gType, v.geometry.gParam⟩ ∧
      Within (1230 * ((1 + A) * τ)) (vlen (posPart (sdfPoseZYX v.pose))) T
        (match v.geometry with
          | .cylinder .. => sdfPoseZYX v.pose * mkHom (elem .z (Real.pi / 2)) 0
          | _ => sdfPoseZYX v.pose) := by
  have h0 : 0 ≤ τ := L.u_nonneg.trans hu
  have A0 : 0 ≤ A := by linarith
  have hAτ := mul_nonneg A0 h0
  obtain ⟨X, hX, wX⟩ := sdfTransformFl_ok L hu hκ hγ A0 hA hv
  have wX' : Within (1230 * ((1 + A) * τ)) (vlen (posPart (sdfPoseZYX v.pose))) X (sdfPoseZYX v.pose) := wX.mono (by nlinarith) le_rfl
  have r0 : L.rnd 0 = 0 := by simpa using L.rnd_err 0
  cases hg : v.geometry with
  | cylinder r l =>
    have hπ : |(0.5 * Real.pi : ℝ)| ≤ A := by
      rw [abs_of_nonneg (by positivity)]; have := Real.pi_lt_d2; norm_num at this ⊢; linarith
    obtain ⟨Y, hY, wY⟩ := sdfTransformFl_ok L hu hκ hγ A0 hA (o := some ⟨0, ![0.5 * Real.pi, 0, 0]⟩)
      (by rintro p ⟨⟩ i; fin_cases i <;> first | exact hπ | simpa using A0)
    have eY : (do let r ← eulerAnglesToMatrixFl L.toMachine ![L.rnd (0.5 * Real.pi), 0, 0] n!"ZYX"; pure (hom r 0) : Except Err M4) = .ok Y := by
      rw [← hY, convertTransformFl]
      have e1 : (fun i => L.rnd ((![0.5 * Real.pi, 0, 0] : V3) i)) = ![L.rnd (0.5 * Real.pi), 0, 0] := by
        funext i; fin_cases i <;> simp [r0]
      have e2 : (fun i => L.rnd ((0 : V3) i)) = 0 := by funext i; simp [r0]
      simp only [e1, e2]
    have h00 : ∀ a : XYZ, elem a 0 = 1 := fun a => by
      rw [elem, ← axisAndAngleToMatrix33_eq_rotAbout, axisAndAngle_zero]
    have eZ : sdfPoseZYX (some ⟨0, ![0.5 * Real.pi, 0, 0]⟩) = mkHom (elem .z (Real.pi / 2)) 0 := by
      have : (0.5 : ℝ) * Real.pi = Real.pi / 2 := by ring
      simp [sdfPoseZYX, h00, this]
    rw [eZ, posPart_mkHom] at wY
    refine ⟨L.mul X Y, ?_, ?_⟩
    · simp only [convertVisualFl, hX, ok_bind, hg]
      cases he : eulerAnglesToMatrixFl L.toMachine ![L.rnd (0.5 * Real.pi), 0, 0] n!"ZYX" with
      | error e => rw [he, error_bind] at eY; cases eY
      | ok R =>
        rw [he, ok_bind] at eY
        cases eY
        rfl
    · refine (wX.mul L.toMachine wY).mono ?_ (by simp [vlen])
      set E := (1 + A) * τ with hE
      have E0 : 0 ≤ E := by nlinarith
      have γ0 := L.γ_nonneg
      have hγE : L.γ ≤ 5 * E := by nlinarith
      have e1 := Real.add_one_le_exp (300 * E)
      have e2 := Real.add_one_le_exp (15 * E)
      have b3 : (1 + 300 * E) * (1 + 300 * E) * (1 + 3 * L.γ) ≤ Real.exp (615 * E) := by
        have : Real.exp (615 * E) = Real.exp (300 * E) * Real.exp (300 * E) * Real.exp (15 * E) := by
          rw [← Real.exp_add, ← Real.exp_add]; congr 1; ring
        rw [this]
        gcongr <;> linarith
      have b4 := Real.abs_exp_sub_one_le (x := 615 * E) (by rw [abs_of_nonneg (by positivity)]; linarith)
      rw [abs_of_nonneg (show 0 ≤ 615 * E by positivity)] at b4
      have b5 := (abs_le.1 b4).2
      linarith
  | _ => exact ⟨X, by simp only [convertVisualFl, hX, ok_bind, hg]; rfl, wX'⟩

end Sdf

/-! ## MJCF -/

namespace Mjcf

theorem anchorFl_ok (L : TrigMachine) {τ : ℝ} (hu : L.u ≤ τ) (p : V3) :
    Within (81 * τ) (vlen p) (hom 1 fun i => L.rnd (p i)) (transT p) := by
  have h0 : 0 ≤ τ := L.u_nonneg.trans hu
  rw [hom_eq_mkHom, transT]
  refine ⟨isRigid_mkHom isRot_one p, mkHom_affine _ _, ?_, ?_, ?_⟩
  · rw [rotPart_mkHom, rotPart_mkHom, sub_self]; simpa [fro] using h0
  · rw [posPart_mkHom]
  · rw [posPart_mkHom, posPart_mkHom]
    exact (storedPos_near L hu h0 p).trans (mul_le_mul_of_nonneg_right (by linarith) (vlen_nonneg _))

section
variable (L : TrigMachine) {τ : ℝ} (hu : L.u ≤ τ) (hκ : L.κ ≤ τ) (hγ : L.γ ≤ 5 * τ) (h1 : τ ≤ 1 / 1000)
include hu hκ hγ h1

theorem bodyJointFl_ok {m : MjModel} (h : MjSupported m) {b : Body} (hb : b ∈ m.bodies) :
    ∃ q, bodyJointFl L m b = .ok q ∧ MjDeclaredUpTo (81 * τ) (9 * τ) (bodyJnt m b) q := by
  have hn := h.jnt_num b hb
  rcases Nat.lt_or_ge 0 b.jntnum with h0 | h0
  · have e : b.jntnum = 1 := by omega
    have hlt := h.jnt_adr b hb e
    have hj : m.joints[b.jntadr] ∈ m.joints := List.getElem_mem hlt
    have hget : m.joints[b.jntadr]? = some m.joints[b.jntadr] := List.getElem?_eq_getElem hlt
    generalize m.joints[b.jntadr] = j at hj hget
    have hB : bodyJnt m b = some j := by simp [bodyJnt, e, hget]
    have hax : ∀ i, |normalizeAxisFl L j.axis i - ((vlen j.axis)⁻¹ • j.axis) i| ≤ 9 * τ := fun i => by
      rw [← normalizeAxis_eq]; exact normalizeAxisFl_near L hu hκ hγ h1 (h.jnt_axis j hj) i
    rw [hB]
    rcases h.jnt_kind j hj with ht | ht
    · exact ⟨_, by simp only [bodyJointFl, e, hget, ok_bind, ht, jointTypeMap]; rfl, rfl, rfl, .inl ⟨ht, rfl⟩,
        ⟨_, rfl, anchorFl_ok L hu j.pos⟩, hax⟩
    · exact ⟨_, by simp only [bodyJointFl, e, hget, ok_bind, ht, jointTypeMap]; rfl, rfl, rfl, .inr ⟨ht, rfl⟩,
        ⟨_, rfl, anchorFl_ok L hu j.pos⟩, hax⟩
  · have e : b.jntnum = 0 := by omega
    have hB : bodyJnt m b = none := by simp [bodyJnt, e]
    rw [hB]
    exact ⟨_, by simp [bodyJointFl, e, pure_ok]; rfl, rfl, rfl⟩

end

theorem buildRecurseFl_ok' (L : TrigMachine) {m : MjModel} (h : MjSupported m)
    (q : Body → Joint) (hq : ∀ b ∈ m.bodies, bodyJointFl L m b = .ok (q b)) (mk : Node → Joint × Link)
    (hmk1 : ∀ p, mk (.inl p) = (q p.1, ⟨some p.1.name, some (poseMatrixFl L.toMachine p.1.pos p.1.quat), bodyToGeomsFl L.toMachine m p.2⟩))
    (hmk2 : ∀ s, mk (.inr s) = (Joint.initFl L, ⟨some s.name, some (poseMatrixFl L.toMachine s.pos s.quat), []⟩))
    (fuel : ℕ) : ∀ id, id < m.bodies.length → m.bodies.length ≤ fuel + id →
      buildRecurseFl L m fuel id = .ok (bodyToGeomsFl L.toMachine m id, pureBuild (npar m) nchi mk (nodes m) fuel (bname m id)) := by
  induction fuel with
  | zero => intro id h1 h2; omega
  | succ fuel ih =>
    intro id h1 h2
    rw [buildRecurseFl, pureBuild, mem_kids h, filter_nodes h h1]
    rw [mapM_ok_map _ (fun p => Frame.mk p.1.name (mk (.inl p)).2 (mk (.inl p)).1
      (pureBuild (npar m) nchi mk (nodes m) fuel p.1.name))]
    · have : siteFramesFl L m id = ((m.sites.filter fun s => s.bodyid == id).map fun s =>
          Frame.mk s.name (mk (.inr s)).2 (mk (.inr s)).1 (pureBuild (npar m) nchi mk (nodes m) fuel s.name)) := by
        refine List.map_congr_left fun s hs => ?_
        rw [pureBuild_site h mk fuel s (List.mem_filter.1 hs).1, hmk2]
      rw [ok_bind, this, List.map_append, List.map_map, List.map_map]
      rfl
    · intro p hp
      obtain ⟨hp, e⟩ := List.mem_filter.1 hp
      have e : p.1.parentid = id := by simpa using e
      obtain ⟨hg, hpos⟩ := mem_drop_zipIdx.1 hp
      have hlt := h.parent_lt _ _ hg hpos
      have hn : bname m p.2 = p.1.name := by simp [bname, hg]
      rw [hq p.1 (List.mem_of_getElem? hg), ok_bind,
        ih p.2 (List.getElem?_eq_some_iff.1 hg).1 (by omega), ok_bind, hn, hmk1]
      rfl

/-- the declared pose of a node -/
noncomputable def nodePose : Node → M4
  | .inl p => quatPose p.1.pos p.1.quat
  | .inr s => quatPose s.pos s.quat

/-- its position -/
def nodePos : Node → V3
  | .inl p => p.1.pos
  | .inr s => s.pos

/-- its joint -/
def nodeJnt (m : MjModel) : Node → Option MJoint
  | .inl p => bodyJnt m p.1
  | .inr _ => none

section
variable (L : TrigMachine) {τ : ℝ} (hu : L.u ≤ τ) (hκ : L.κ ≤ τ) (hγ : L.γ ≤ 5 * τ) (h1 : τ ≤ 1 / 1000)
include hu hκ hγ h1

theorem mjcf_load_nodes (m : MjModel) (h : MjSupported m) (fuel : ℕ) (hf : m.bodies.length + m.sites.length ≤ fuel) :
    ∃ f b0, buildRootFl L m fuel .default = .ok f ∧ m.bodies[0]? = some b0 ∧ f.name = b0.name ∧ f.joint.jtype = .fixed ∧
      f.joint.offset = none ∧ (∃ T, f.link.offset = some T ∧ Within (81 * τ) (vlen b0.pos) T (quatPose b0.pos b0.quat)) ∧
      ((preorder f).map Frame.name).Perm (m.bodies.map Body.name ++ m.sites.map Site.name) ∧
      (∀ g ∈ preorder f, g.children.map Frame.name = ((nodes m).filter fun n => decide (npar m n = g.name)).map nchi) ∧
      ∀ g ∈ preorder f, g = f ∨ ∃ n ∈ nodes m, g.name = nchi n ∧ MjDeclaredUpTo (81 * τ) (9 * τ) (nodeJnt m n) g.joint ∧
        ∃ T, g.link.offset = some T ∧ Within (81 * τ) (vlen (nodePos n)) T (nodePose n) := by
  have hc : ∀ b : Body, ∃ q, b ∈ m.bodies → bodyJointFl L m b = .ok q ∧ MjDeclaredUpTo (81 * τ) (9 * τ) (bodyJnt m b) q := by
    intro b
    by_cases hb : b ∈ m.bodies
    · obtain ⟨q, hq⟩ := bodyJointFl_ok L hu hκ hγ h1 h hb
      exact ⟨q, fun _ => hq⟩
    · exact ⟨Joint.init, fun h => absurd h hb⟩
  choose q hq using hc
  let mk : Node → Joint × Link := fun
    | .inl p => (q p.1, ⟨some p.1.name, some (poseMatrixFl L.toMachine p.1.pos p.1.quat), bodyToGeomsFl L.toMachine m p.2⟩)
    | .inr s => (Joint.initFl L, ⟨some s.name, some (poseMatrixFl L.toMachine s.pos s.quat), []⟩)
  have h0 : 0 < m.bodies.length := List.length_pos_iff.2 h.world
  have hb0 : m.bodies[0]? = some m.bodies[0] := List.getElem?_eq_getElem h0
  have hm0 : m.bodies[0] ∈ m.bodies := List.getElem_mem h0
  generalize m.bodies[0] = b0 at hb0 hm0
  have hrec := buildRecurseFl_ok' L h q (fun b hb => (hq b hb).1) mk (fun _ => rfl) (fun _ => rfl) fuel 0 h0 (by omega)
  have hn0 : bname m 0 = b0.name := by simp [bname, hb0]
  rw [hn0] at hrec
  have htree := mj_tree h
  rw [hn0] at htree
  obtain ⟨t1, t2, t3, t4⟩ := pureBuild_tree htree mk fuel (by simpa using hf)
    ⟨some b0.name, some (poseMatrixFl L.toMachine b0.pos b0.quat), bodyToGeomsFl L.toMachine m 0⟩ (Joint.initFl L) _ rfl
  refine ⟨_, b0, ?_, hb0, rfl, rfl, rfl, ⟨_, rfl, poseMatrixFl_ok L.toMachine hu h1 (h.quat_body b0 hm0)⟩, t1, t2, ?_⟩
  · simp only [buildRootFl, findBody, hb0, ok_bind, hrec]
    rfl
  · intro g hg
    rcases t4 g hg with rfl | ⟨n, hn, e1, e2, e3⟩
    · exact .inl rfl
    · refine .inr ⟨n, hn, e1, ?_⟩
      rw [e2, e3]
      rcases List.mem_append.1 hn with hn | hn
      · obtain ⟨p, hp, rfl⟩ := List.mem_map.1 hn
        obtain ⟨e, hp⟩ := mem_drop_zipIdx.1 hp
        have hb := List.mem_of_getElem? e
        exact ⟨(hq _ hb).2, _, rfl, poseMatrixFl_ok L.toMachine hu h1 (h.quat_body _ hb)⟩
      · obtain ⟨s, hs, rfl⟩ := List.mem_map.1 hn
        exact ⟨⟨rfl, rfl⟩, _, rfl, poseMatrixFl_ok L.toMachine hu h1 (h.quat_site _ hs)⟩

end

theorem nodes_cases {m : MjModel} {n : Node} (hn : n ∈ nodes m) :
    (∃ b i, n = .inl (b, i) ∧ m.bodies[i]? = some b ∧ 0 < i) ∨ ∃ s ∈ m.sites, n = .inr s := by
  rcases List.mem_append.1 hn with hn | hn
  · obtain ⟨p, hp, rfl⟩ := List.mem_map.1 hn
    exact .inl ⟨p.1, p.2, rfl, mem_drop_zipIdx.1 hp⟩
  · obtain ⟨s, hs, rfl⟩ := List.mem_map.1 hn
    exact .inr ⟨s, hs, rfl⟩

theorem body_node {m : MjModel} {i : ℕ} {b : Body} (e : m.bodies[i]? = some b) (hi : 0 < i) : (Sum.inl (b, i) : Node) ∈ nodes m :=
  List.mem_append_left _ (List.mem_map_of_mem (mem_drop_zipIdx.2 ⟨e, hi⟩))

theorem site_node {m : MjModel} {s : Site} (hs : s ∈ m.sites) : (Sum.inr s : Node) ∈ nodes m :=
  List.mem_append_right _ (List.mem_map_of_mem hs)

theorem bname_eq {m : MjModel} {i : ℕ} {b : Body} (e : m.bodies[i]? = some b) : bname m i = b.name := by simp [bname, e]

/-- what a posed model says about a node -/
theorem MjPosed_node {m : MjModel} (h : MjSupported m) {val : Name → ℝ} {P : Name → M4} {len : Name → ℝ} {depth : Name → ℕ}
    (hP : MjPosed m val P len depth) {n : Node} (hn : n ∈ nodes m) :
    P (nchi n) = P (npar m n) * (nodePose n * mjJointT (nodeJnt m n) val) ∧
    len (nchi n) = len (npar m n) + (vlen (nodePos n) + mjJointLen (nodeJnt m n) val) ∧ depth (nchi n) = depth (npar m n) + 1 := by
  rcases nodes_cases hn with ⟨b, i, rfl, e, hi⟩ | ⟨s, hs, rfl⟩
  · have h1 := h.parent_lt _ _ e hi
    have h2 := (List.getElem?_eq_some_iff.1 e).1
    have e' : m.bodies[b.parentid]? = some m.bodies[b.parentid] := List.getElem?_eq_getElem (by omega)
    simp only [nchi, npar, bname_eq e', nodePose, nodePos, nodeJnt]
    exact hP.body i b _ e hi e'
  · have hsb := h.site_body s hs
    have e' : m.bodies[s.bodyid]? = some m.bodies[s.bodyid] := List.getElem?_eq_getElem hsb
    simp only [nchi, npar, bname_eq e', nodePose, nodePos, nodeJnt, mjJointT, mjJointLen, Matrix.mul_one, add_zero]
    exact hP.site s hs _ e'

/-- **C136**: a supported model says where its bodies and sites are. -/
theorem C136_mjcf_posed (m : MjModel) (h : MjSupported m) (val : Name → ℝ) : ∃ P len depth, MjPosed m val P len depth := by
  have h0 : 0 < m.bodies.length := List.length_pos_iff.2 h.world
  have hb0 : m.bodies[0]? = some m.bodies[0] := List.getElem?_eq_getElem h0
  generalize m.bodies[0] = b0 at hb0
  obtain ⟨R, r1, r2⟩ := tree_recursion (mj_tree h) (quatPose b0.pos b0.quat, vlen b0.pos, 1)
    fun n x => (x.1 * (nodePose n * mjJointT (nodeJnt m n) val), x.2.1 + (vlen (nodePos n) + mjJointLen (nodeJnt m n) val), x.2.2 + 1)
  refine ⟨fun n => (R n).1, fun n => (R n).2.1, fun n => (R n).2.2, ?_, ?_, ?_⟩
  · intro b hb
    cases hb0.symm.trans hb
    rw [bname_eq hb0] at r1
    simp only [r1, and_self]
  · intro i b p e hi ep
    have := r2 _ (body_node e hi)
    simp only [nchi, npar, bname_eq ep] at this
    simp only [this, nodePose, nodePos, nodeJnt, and_self]
  · intro s hs p ep
    have := r2 _ (site_node hs)
    simp only [nchi, npar, bname_eq ep] at this
    simp only [this, nodePose, nodePos, nodeJnt, mjJointT, mjJointLen, Matrix.mul_one, add_zero, and_self]

/-- **C136**: when all joints have their anchors at the origin of their body, this is where MuJoCo places the bodies. -/
theorem C136_mjcf_placed (m : MjModel) (h : MjSupported m) (hz : ∀ j ∈ m.joints, j.pos = 0) (val : Name → ℝ) {P : Name → M4}
    {len : Name → ℝ} {depth : Name → ℕ} (hP : MjPosed m val P len depth) :
    ∀ i b, m.bodies[i]? = some b → MjPlaced m val i (P b.name) := by
  intro i
  induction i using Nat.strong_induction_on with
  | _ i ih =>
    intro b e
    rcases Nat.eq_zero_or_pos i with rfl | hi
    · rw [(hP.world b e).1]; exact .world b e
    · have h1 := h.parent_lt _ _ e hi
      have h2 := (List.getElem?_eq_some_iff.1 e).1
      have e' : m.bodies[b.parentid]? = some m.bodies[b.parentid] := List.getElem?_eq_getElem (by omega)
      have hs := MjPlaced.child i b _ e hi (ih _ h1 _ e')
      have : mjLocal m val b = quatPose b.pos b.quat * mjJointT (bodyJnt m b) val := by
        unfold mjLocal mjJointT
        cases hB : bodyJnt m b with
        | none => rfl
        | some j =>
          have hj : j ∈ m.joints := by
            unfold bodyJnt at hB
            split at hB
            · cases hB
            · exact List.mem_of_getElem? hB
          have ht : transT (-j.pos) = 1 := by rw [hz j hj, neg_zero, transT, mkHom_one]
          simp only [ht, Matrix.mul_one]
      rw [(hP.body i b _ e hi e').1, ← this]
      exact hs

/-- the robot of the model, on the frames of a tree with its names -/
noncomputable def _root_.PK.Spec.mjIdeal (m : MjModel) (b0 : Body) : Ideal :=
  let n (f : Frame) := (nodes m).find? fun n => decide (nchi n = f.name)
  ⟨fun f => ((n f).map nodePose).getD (quatPose b0.pos b0.quat),
    fun f => (((n f).bind (nodeJnt m)).map fun j => transT j.pos).getD 1,
    fun f => (((n f).bind (nodeJnt m)).map fun j => (vlen j.axis)⁻¹ • j.axis).getD 0⟩

/-- lengths of the link offsets -/
noncomputable def mjLoLen (m : MjModel) (b0 : Body) (f : Frame) : ℝ :=
  (((nodes m).find? fun n => decide (nchi n = f.name)).map fun n => vlen (nodePos n)).getD (vlen b0.pos)

/-- lengths of the joint offsets -/
noncomputable def mjJoLen (m : MjModel) (f : Frame) : ℝ :=
  ((((nodes m).find? fun n => decide (nchi n = f.name)).bind (nodeJnt m)).map fun j => vlen j.pos).getD 0

theorem findN {m : MjModel} (h : MjSupported m) {n : Node} (hn : n ∈ nodes m) {f : Frame} (hf : f.name = nchi n) :
    ((nodes m).find? fun n => decide (nchi n = f.name)) = some n := by
  cases hx : (nodes m).find? fun n => decide (nchi n = f.name) with
  | none => exact absurd (by simp [hf]) (List.find?_eq_none.1 hx n hn)
  | some n' =>
    rw [chi_inj (mj_tree h).one_parent (List.mem_of_find?_eq_some hx) hn (by simpa [hf] using List.find?_some hx)]

theorem findN_root {m : MjModel} (h : MjSupported m) {f : Frame} (hf : f.name = bname m 0) :
    ((nodes m).find? fun n => decide (nchi n = f.name)) = none :=
  List.find?_eq_none.2 fun j hj => by simpa [hf] using (mj_tree h).root_top j hj

theorem nodeJnt_some {m : MjModel} (h : MjSupported m) {n : Node} (hn : n ∈ nodes m) {j : MJoint} (e : nodeJnt m n = some j) :
    ∃ b i, n = .inl (b, i) ∧ m.bodies[i]? = some b ∧ b.jntnum = 1 ∧ m.joints[b.jntadr]? = some j := by
  rcases nodes_cases hn with ⟨b, i, rfl, e', hi⟩ | ⟨s, hs, rfl⟩
  · refine ⟨b, i, rfl, e', ?_⟩
    simp only [nodeJnt, bodyJnt] at e
    split at e
    · cases e
    · have := h.jnt_num b (List.mem_of_getElem? e')
      exact ⟨by omega, e⟩
  · cases e

/-- **C136**: from the MJCF model to the pose: the model is loaded in one arithmetic (single precision) and forward kinematics
computed in another.  The pose of every body and site is the declared one up to a multiple of the coarser unit roundoff and the
number of frames on the way. -/
theorem C136_mjcf (L : TrigMachine) (fl : Machine) {τ : ℝ} (hu : L.u ≤ τ) (hκ : L.κ ≤ τ) (hγ : L.γ ≤ 5 * τ)
    (mu : fl.u ≤ τ) (mκ : fl.κ ≤ τ) (mγ : fl.γ ≤ 5 * τ) (ht : τ ≤ 1 / 1000)
    (m : MjModel) (h : MjSupported m) (fuel : ℕ) (hf : m.bodies.length + m.sites.length ≤ fuel) :
    ∃ f, buildRootFl L m fuel .default = .ok f ∧ ∀ (B : ℕ) (val : Fin B → Name → ℝ),
      ∃ d, forwardKinematicsFl fl f ((Chain.init f).getJointParameterNames.map fun n b => val b (n.getD [])) = .ok d ∧
        ∀ n ∈ m.bodies.map Body.name ++ m.sites.map Site.name, ∃ T, d.get? n = some T ∧
          ∀ b P len depth, MjPosed m (val b) P len depth → depth n * (700 * τ) ≤ 1 →
            Within (1400 * depth n * τ) (len n) (T b) (P n) := by
  have h0 : 0 ≤ τ := L.u_nonneg.trans hu
  obtain ⟨f, b0, f1, hb0, f2, f3, f3', f4, f5, f6, f8⟩ := mjcf_load_nodes L hu hκ hγ ht m h fuel hf
  refine ⟨f, f1, fun B val => ?_⟩
  have hnames : ((preorder f).map Frame.name).Nodup := f5.nodup_iff.2 h.names
  have hroot : f.name = bname m 0 := by rw [f2, bname_eq hb0]
  have hmv : ∀ g ∈ preorder f, Moving g.joint → ∃ n ∈ nodes m, ∃ j, nodeJnt m n = some j ∧ g.name = nchi n ∧ g.joint.name = some j.name := by
    intro g hg hm
    rcases f8 g hg with rfl | ⟨n, hn, e, d, -⟩
    · exact absurd f3 hm
    · cases hB : nodeJnt m n with
      | none => rw [hB] at d; exact absurd d.1 hm
      | some j => rw [hB] at d; exact ⟨n, hn, j, hB, e, d.1⟩
  have hw : WF f := by
    refine wf_of hnames (fun g hg => h.newline _ (f5.mem_iff.1 (List.mem_map_of_mem hg))) ?_
    intro a ha b hb ma mb e
    obtain ⟨na, hna, ja, a1, a2, a3⟩ := hmv a ha ma
    obtain ⟨nb, hnb, jb, b1, b2, b3⟩ := hmv b hb mb
    obtain ⟨ba, ia, rfl, a4, a5, a6⟩ := nodeJnt_some h hna a1
    obtain ⟨bb, ib, rfl, b4, b5, b6⟩ := nodeJnt_some h hnb b1
    rw [a3, b3] at e
    have hj : ja = jb := List.inj_on_of_nodup_map h.jnt_names (List.mem_of_getElem? a6) (List.mem_of_getElem? b6) (Option.some.inj e)
    have hadr : ba.jntadr = bb.jntadr := by
      rw [← hj] at b6
      obtain ⟨l1, e1⟩ := List.getElem?_eq_some_iff.1 a6
      obtain ⟨l2, e2⟩ := List.getElem?_eq_some_iff.1 b6
      have hnd := List.Nodup.of_map _ h.jnt_names
      exact (List.Nodup.getElem_inj_iff hnd).1 (e1.trans e2.symm)
    have := h.jnt_own ia ib ba bb a4 b4 a5 b5 hadr
    subst this
    cases a4.symm.trans b4
    rw [a2, b2]
  have hδ : (0 : ℝ) ≤ 81 * τ := by linarith
  have one : Within (81 * τ) 0 (1 : M4) 1 := (within_refl isRigid_one).mono hδ (by simp [posPart, vlen])
  have hI : ∀ g ∈ preorder f, StoredWithin (81 * τ) (9 * τ) (mjIdeal m b0) (mjLoLen m b0 g) (mjJoLen m g) g := by
    intro g hg
    rcases f8 g hg with rfl | ⟨n, hn, e, d, T, t1, t2⟩
    · obtain ⟨T, t1, t2⟩ := f4
      have hr := findN_root h hroot
      refine ⟨?_, ?_, fun hm => absurd f3 hm, fun hm => absurd f3 hm⟩
      · simpa only [mjIdeal, mjLoLen, hr, t1, Option.map_none, Option.getD_none, Option.getD_some] using t2
      · simpa only [mjIdeal, mjJoLen, hr, f3', Option.bind_none, Option.map_none, Option.getD_none] using one
    · have hfn := findN h hn e
      have hlo : Within (81 * τ) (mjLoLen m b0 g) (g.link.offset.getD 1) ((mjIdeal m b0).lo g) := by
        simpa only [mjIdeal, mjLoLen, hfn, t1, Option.map_some, Option.getD_some] using t2
      cases hB : nodeJnt m n with
      | none =>
        rw [hB] at d
        refine ⟨hlo, ?_, fun hm => absurd d.1 hm, fun hm => absurd d.1 hm⟩
        simpa only [mjIdeal, mjJoLen, hfn, hB, d.2, Option.bind_some, Option.map_none, Option.getD_none] using one
      | some j =>
        rw [hB] at d
        obtain ⟨-, -, -, ⟨T', o1, o2⟩, d2⟩ := d
        obtain ⟨b, i, -, -, -, e6⟩ := nodeJnt_some h hn hB
        have hne := h.jnt_axis j (List.mem_of_getElem? e6)
        refine ⟨hlo, ?_, fun _ => ?_, fun _ i => ?_⟩
        · simpa only [mjIdeal, mjJoLen, hfn, hB, o1, Option.bind_some, Option.map_some, Option.getD_some] using o2
        · simp only [mjIdeal, hfn, hB, Option.bind_some, Option.map_some, Option.getD_some]
          rw [← normalizeAxis_eq]
          exact (axis_scaled _ hne).1
        · simp only [mjIdeal, hfn, hB, Option.bind_some, Option.map_some, Option.getD_some]
          exact d2 i
  have enames : (Chain.init f).getJointParameterNames = (movingJoints f).map Joint.name := jointParamNames_eq f
  rw [enames]
  obtain ⟨d, d1, d2⟩ := tree_within fl (δ := 81 * τ) (τ := 9 * τ) (by linarith) (by linarith) (by linarith) hw hI
    (fun n b => val b (n.getD [])) (x := 700 * τ) (by linarith)
  refine ⟨d, d1, fun n hn => ?_⟩
  obtain ⟨g, hg, hgl⟩ := List.mem_map.1 (f5.mem_iff.2 hn)
  obtain ⟨T, t1, t2⟩ := d2 g hg
  refine ⟨T, hgl ▸ t1, fun b P len depth hP hb => ?_⟩
  have := t2 b P len depth ?_ ?_ (by rw [hgl]; exact hb)
  · rw [hgl] at this
    exact this.mono (le_of_eq (by ring)) le_rfl
  · obtain ⟨r1, r2, r3⟩ := hP.world b0 hb0
    have hr := findN_root h hroot
    rw [f2]
    refine ⟨?_, ?_, r3⟩
    · rw [r1]; simp [mjIdeal, hr, Ideal.motion, f3]
    · rw [r2]; simp [mjLoLen, mjJoLen, hr, travel, f3]
  · intro g hg k hk
    have hkm := preorder_children hg hk
    have hkn : k.name ∈ ((nodes m).filter fun n => decide (npar m n = g.name)).map nchi := f6 g hg ▸ List.mem_map_of_mem hk
    obtain ⟨n, hn, e⟩ := List.mem_map.1 hkn
    obtain ⟨hn, hnp⟩ := List.mem_filter.1 hn
    have hnp : npar m n = g.name := by simpa using hnp
    rcases f8 k hkm with rfl | ⟨n', hn', e', dj, -⟩
    · exact absurd (by rw [e, hroot]) ((mj_tree h).root_top n hn)
    obtain rfl : n' = n := chi_inj (mj_tree h).one_parent hn' hn (by rw [← e', e])
    have hfc := findN h hn e'
    obtain ⟨s1, s2, s3⟩ := MjPosed_node h hP hn
    rw [← e, ← hnp, s1, s2, s3]
    cases hB : nodeJnt m n' with
    | none =>
      rw [hB] at dj
      refine ⟨?_, ?_, rfl⟩
      · simp [mjIdeal, hfc, hB, Ideal.motion, dj.1, mjJointT]
      · simp [mjLoLen, mjJoLen, hfc, hB, travel, dj.1, mjJointLen]
    | some j =>
      rw [hB] at dj
      obtain ⟨dn, -, dk, -⟩ := dj
      refine ⟨?_, ?_, rfl⟩
      · rcases dk with ⟨k1, k2⟩ | ⟨k1, k2⟩ <;>
          simp [mjIdeal, hfc, hB, Ideal.motion, k1, k2, mjJointT, mjMotion, dn, Matrix.mul_assoc]
      · rcases dk with ⟨k1, k2⟩ | ⟨k1, k2⟩ <;>
          simp [mjLoLen, mjJoLen, hfc, hB, travel, k1, k2, mjJointLen, mjTravel, dn, add_assoc]

/-- **C136**: the stored geoms of a body -/
theorem C136_mjcf_geoms (L : TrigMachine) {τ : ℝ} (hu : L.u ≤ τ) (ht : τ ≤ 1 / 1000) (m : MjModel) (id : ℕ)
    (hq : ∀ g ∈ m.geoms, toH g.quat ≠ 0) :
    List.Forall₂ (fun (g : Geom) (v : Visual) => (∃ T, v.offset = some T ∧ Within (81 * τ) (vlen g.pos) T (quatPose g.pos g.quat)) ∧
        v.geomType = some (.code g.type) ∧ v.geomParam = .size g.size)
      (m.geoms.filter fun g => g.bodyid == id) (bodyToGeomsFl L.toMachine m id) := by
  unfold bodyToGeomsFl
  rw [List.forall₂_map_right_iff, List.forall₂_same]
  exact fun g hg => ⟨⟨_, rfl, poseMatrixFl_ok L.toMachine hu ht (hq g (List.mem_filter.1 hg).1)⟩, rfl, rfl⟩

/-- **C136**: a supported model is stored in single precision as its declared tree of bodies and sites. -/
theorem C136_mjcf_load (L : TrigMachine) {τ : ℝ} (hu : L.u ≤ τ) (hκ : L.κ ≤ τ) (hγ : L.γ ≤ 5 * τ) (h1 : τ ≤ 1 / 1000)
    (m : MjModel) (h : MjSupported m) (fuel : ℕ) (hf : m.bodies.length + m.sites.length ≤ fuel) :
    ∃ f, buildRootFl L m fuel .default = .ok f ∧
      (∃ b, m.bodies[0]? = some b ∧ f.name = b.name ∧ f.joint.jtype = .fixed ∧ f.joint.offset = none ∧
        ∃ T, f.link.offset = some T ∧ Within (81 * τ) (vlen b.pos) T (quatPose b.pos b.quat)) ∧
      ((preorder f).map Frame.name).Perm (m.bodies.map Body.name ++ m.sites.map Site.name) ∧
      (∀ g ∈ preorder f, g.children.map Frame.name = ((mjEdges m).filter fun e => decide (e.parent = g.name)).map MjEdge.child) ∧
      ∀ g ∈ preorder f, g = f ∨
        (∃ i b, m.bodies[i]? = some b ∧ 0 < i ∧ g.name = b.name ∧ MjDeclaredUpTo (81 * τ) (9 * τ) (bodyJnt m b) g.joint ∧
          ∃ T, g.link.offset = some T ∧ Within (81 * τ) (vlen b.pos) T (quatPose b.pos b.quat)) ∨
        ∃ s ∈ m.sites, g.name = s.name ∧ g.joint.jtype = .fixed ∧ g.joint.offset = none ∧
          ∃ T, g.link.offset = some T ∧ Within (81 * τ) (vlen s.pos) T (quatPose s.pos s.quat) := by
  obtain ⟨f, b0, f1, hb0, f2, f3, f3', f4, f5, f6, f8⟩ := mjcf_load_nodes L hu hκ hγ h1 m h fuel hf
  refine ⟨f, f1, ⟨b0, hb0, f2, f3, f3', f4⟩, f5, fun g hg => ?_, fun g hg => ?_⟩
  · rw [f6 g hg, mjEdges_eq, List.filter_map, List.map_map]
    rfl
  · rcases f8 g hg with rfl | ⟨n, hn, e, d, t⟩
    · exact .inl rfl
    · rcases nodes_cases hn with ⟨b, i, rfl, e', hi⟩ | ⟨s, hs, rfl⟩
      · exact .inr (.inl ⟨i, b, e', hi, e, d, t⟩)
      · exact .inr (.inr ⟨s, hs, e, d.1, d.2, t⟩)

/-- **C136**: loaded in `float32`, evaluated in `float32` or better: at most one part in ten thousand per frame. -/
theorem C136_mjcf_single (q : ℕ) (hq : 24 ≤ q) (m : MjModel) (h : MjSupported m) (fuel : ℕ)
    (hf : m.bodies.length + m.sites.length ≤ fuel) :
    ∃ f, buildRootFl (binaryTrig 24 (by norm_num)) m fuel .default = .ok f ∧ ∀ (B : ℕ) (val : Fin B → Name → ℝ),
      ∃ d, forwardKinematicsFl (binary q (by omega)) f
          ((Chain.init f).getJointParameterNames.map fun n b => val b (n.getD [])) = .ok d ∧
        ∀ n ∈ m.bodies.map Body.name ++ m.sites.map Site.name, ∃ T, d.get? n = some T ∧
          ∀ b P len depth, MjPosed m (val b) P len depth → depth n ≤ 20000 → Within (depth n / 10000) (len n) (T b) (P n) := by
  have hq' : (1 : ℝ) / 2 ^ q ≤ 1 / 2 ^ 24 := one_div_le_one_div_of_le (by positivity) (pow_le_pow_right₀ (by norm_num) hq)
  obtain ⟨hu, hκ⟩ := binary_u 24 (by norm_num)
  obtain ⟨mu, mκ⟩ := binary_u q (by omega)
  obtain ⟨f, f1, f2⟩ := C136_mjcf (binaryTrig 24 (by norm_num)) (binary q (by omega)) (τ := 1 / 2 ^ 24) hu.le hκ.le
    (binary_γ 24 (by norm_num)) (mu.le.trans hq') (mκ.le.trans hq') ((binary_γ q (by omega)).trans (by linarith))
    (by norm_num) m h fuel hf
  refine ⟨f, f1, fun B val => ?_⟩
  obtain ⟨d, d1, d2⟩ := f2 B val
  refine ⟨d, d1, fun n hn => ?_⟩
  obtain ⟨T, t1, t2⟩ := d2 n hn
  refine ⟨T, t1, fun b P len depth hP hd => ?_⟩
  have hd' : (depth n : ℝ) ≤ 20000 := by exact_mod_cast hd
  have hd0 : (0 : ℝ) ≤ depth n := by positivity
  refine (t2 b P len depth hP (by norm_num; linarith)).mono ?_ le_rfl
  norm_num; linarith

/-- the example: the leg on its hinge, two bodies below the world -/
example (val : Name → ℝ) : ∃ f d T P, buildRootFl (binaryTrig 24 (by norm_num)) (exMj 0 true (.fin 0, .fin 1)) 4 .default = .ok f ∧
    forwardKinematicsFl (binary 53 (by norm_num)) f
      ((Chain.init f).getJointParameterNames.map fun n (_ : Fin 1) => val (n.getD [])) = .ok d ∧
    d.get? n!"leg" = some T ∧ MjPlaced (exMj 0 true (.fin 0, .fin 1)) val 2 P ∧ Within (3 / 10000) 2 (T 0) P := by
  have hs := exMj_supported 0 true (.fin 0, .fin 1)
  obtain ⟨P, len, depth, hP⟩ := C136_mjcf_posed _ hs val
  obtain ⟨f, f1, f2⟩ := C136_mjcf_single 53 (by norm_num) _ hs 4 (by simp [exMj])
  obtain ⟨d, d1, d2⟩ := f2 1 fun _ => val
  obtain ⟨T, t1, t2⟩ := d2 n!"leg" (by simp [exMj, exBody])
  obtain ⟨-, w2, w3⟩ := hP.world (exBody 0) rfl
  obtain ⟨-, a2, a3⟩ := hP.body 1 (exBody 1) (exBody 0) rfl (by simp) rfl
  obtain ⟨-, b2, b3⟩ := hP.body 2 (exBody 2) (exBody 1) rfl (by simp) rfl
  have hd : depth n!"leg" = 3 := by
    have e0 : depth n!"world" = 1 := w3
    have e1 : depth n!"torso" = depth n!"world" + 1 := a3
    have e2 : depth n!"leg" = depth n!"torso" + 1 := b3
    omega
  have hl : len n!"leg" = 2 := by
    have e0 : len n!"world" = 0 := w2.trans (by simp [exBody, vlen])
    have e1 : len n!"torso" = len n!"world" + 1 := a2.trans (by simp [exBody, vlen, bodyJnt, mjJointLen])
    have e2 : len n!"leg" = len n!"torso" + 1 := b2.trans (by simp [exBody, vlen, bodyJnt, mjJointLen, exMj, exJnt, mjTravel])
    linarith
  have hW := t2 0 P len depth hP (by rw [hd]; norm_num)
  rw [hd, hl] at hW
  exact ⟨f, d, T, P n!"leg", f1, d1, t1, C136_mjcf_placed _ hs (by simp [exMj, exJnt]) val hP 2 (exBody 2) rfl, by exact_mod_cast hW⟩

/-- a geom of a body, in single precision -/
example : ∃ v T, bodyToGeomsFl (binaryTrig 24 (by norm_num)).toMachine
      ⟨[exBody 0], [], [], [⟨0, 5, ![1, 2, 3], ![3, 0, 4], ⟨0, 2, 0, 0⟩⟩]⟩ 0 = [v] ∧ v.offset = some T ∧
    Within (1 / 100000) 5 T (quatPose ![3, 0, 4] ⟨0, 2, 0, 0⟩) := by
  obtain ⟨hu, -⟩ := binary_u 24 (by norm_num)
  have hq : toH ⟨0, 2, 0, 0⟩ ≠ 0 := fun h => by
    have : (2 : ℝ) = 0 := congrArg (fun q => q.imI) h
    norm_num at this
  have := C136_mjcf_geoms (binaryTrig 24 (by norm_num)) (τ := 1 / 2 ^ 24) hu.le (by norm_num)
    ⟨[exBody 0], [], [], [⟨0, 5, ![1, 2, 3], ![3, 0, 4], ⟨0, 2, 0, 0⟩⟩]⟩ 0 (by simpa using hq)
  simp only [List.filter_cons, beq_self_eq_true, if_true, List.filter_nil] at this
  obtain ⟨v, l, hv, hl, e⟩ := List.forall₂_cons_left_iff.1 this
  rw [List.forall₂_nil_left_iff.1 hl] at e
  obtain ⟨⟨T, t1, t2⟩, -⟩ := hv
  refine ⟨v, T, e, t1, t2.mono (by norm_num) (le_of_eq ?_)⟩
  rw [show (5 : ℝ) = Real.sqrt (5 ^ 2) by simp, vlen]
  congr 1
  show (3 : ℝ) ^ 2 + 0 ^ 2 + 4 ^ 2 = 5 ^ 2
  norm_num

end Mjcf

namespace Sdf

/-- **C136**: loaded in `float32`, evaluated in `float32` or better: at most three parts in a thousand per link. -/
theorem C136_sdf_single (q : ℕ) (hq : 24 ≤ q) (m : Model) (names : List Name) (root : Name) (h : SdfTree m names root) (hne : m.joints ≠ [])
    (ha : ∀ l ∈ m.links, SdfAnglesLe 4 l.pose) (hj : (m.joints.map Jnt.name).Nodup)
    (hn : ∀ n ∈ names, n.head? ≠ some '\n' ∧ n.getLast? ≠ some '\n') (hax : ∀ j ∈ m.joints, sdfKind j.type ≠ some .fixed → j.axis ≠ 0)
    (fuel : ℕ) (hf : m.links.length ≤ fuel) :
    ∃ f, buildRootFl (binaryTrig 24 (by norm_num)) fuel m = .ok f ∧ ∀ (B : ℕ) (val : Fin B → Option Name → ℝ),
      ∃ d, forwardKinematicsFl (binary q (by omega)) f ((Chain.init f).getJointParameterNames.map fun n b => val b n) = .ok d ∧
        ∀ n ∈ names, ∃ T, d.get? n = some T ∧ ∀ b P len depth, SdfPosed m root (val b) P len depth → depth n ≤ 700 →
          Within (3 * depth n / 1000) (len n) (T b) (P n) := by
  have hq' : (1 : ℝ) / 2 ^ q ≤ 1 / 2 ^ 24 := one_div_le_one_div_of_le (by positivity) (pow_le_pow_right₀ (by norm_num) hq)
  obtain ⟨hu, hκ⟩ := binary_u 24 (by norm_num)
  obtain ⟨mu, mκ⟩ := binary_u q (by omega)
  obtain ⟨f, f1, f2⟩ := C136_sdf (binaryTrig 24 (by norm_num)) (binary q (by omega)) (τ := 1 / 2 ^ 24) (A := 4) hu.le hκ.le
    (binary_γ 24 (by norm_num)) (mu.le.trans hq') (mκ.le.trans hq') ((binary_γ q (by omega)).trans (by linarith))
    (by norm_num) (by norm_num) m names root h hne ha hj hn hax fuel hf
  refine ⟨f, f1, fun B val => ?_⟩
  obtain ⟨d, d1, d2⟩ := f2 B val
  refine ⟨d, d1, fun n hn => ?_⟩
  obtain ⟨T, t1, t2⟩ := d2 n hn
  refine ⟨T, t1, fun b P len depth hP hd => ?_⟩
  have hd' : (depth n : ℝ) ≤ 700 := by exact_mod_cast hd
  have hd0 : (0 : ℝ) ≤ depth n := by positivity
  refine (t2 b P len depth hP (by norm_num; linarith)).mono ?_ le_rfl
  norm_num; linarith

/-- the example: an arm on a revolute joint, placed by a pose with an angle -/
example (q : ℝ) : ∃ f d T, buildRootFl (binaryTrig 24 (by norm_num)) 2 exModel = .ok f ∧
    forwardKinematicsFl (binary 24 (by norm_num)) f
      ((Chain.init f).getJointParameterNames.map fun _ (_ : Fin 1) => q) = .ok d ∧
    d.get? n!"arm" = some T ∧ Within (6 / 1000) 1 (T 0)
      (sdfPoseZYX (some ⟨![0, 0, 1], ![Real.pi / 2, 0, 0]⟩) * mkHom (rotAbout ((vlen ![0, 0, 2])⁻¹ • ![0, 0, 2]) q) 0) := by
  obtain ⟨P, len, depth, hP⟩ := C136_sdf_posed exModel _ _ exModel_tree fun _ => q
  obtain ⟨f, f1, f2⟩ := C136_sdf_single 24 (by norm_num) exModel _ _ exModel_tree (by simp [exModel])
    (by
      simp only [exModel, List.mem_cons, List.not_mem_nil, or_false]
      rintro l (rfl | rfl) p hp <;> cases hp
      intro i
      have hπ := Real.pi_pos
      have := Real.pi_lt_d2
      fin_cases i
      · simp only [Fin.zero_eta, Matrix.cons_val_zero]; rw [abs_of_pos (by positivity)]; norm_num at this; linarith
      · simp
      · simp)
    (by simp [exModel]) (by simp)
    (by
      simp only [exModel, List.mem_singleton, forall_eq]
      intro _ h0
      simpa using congrFun h0 2) 2 (by simp [exModel])
  obtain ⟨d, d1, d2⟩ := f2 1 fun _ _ => q
  obtain ⟨T, t1, t2⟩ := d2 n!"arm" (by simp)
  obtain ⟨r1, r2, r3⟩ := hP.root exModel.links[0] (by simp [exModel]) rfl
  obtain ⟨s1, s2, s3⟩ := hP.step exModel.joints[0] (by simp [exModel]) exModel.links[0] (by simp [exModel]) exModel.links[1]
    (by simp [exModel]) rfl rfl
  have e1 : sdfPoseZYX exModel.links[0].pose = 1 := rfl
  have hd : depth n!"arm" = 2 := by
    have : depth n!"arm" = depth n!"base" + 1 := s3
    omega
  have hl : len n!"arm" = 1 := by
    have h1 : len n!"base" = 0 := r2.trans (by rw [e1]; simp [posPart, vlen])
    have h2 : len n!"arm" = len n!"base" + 1 := s2.trans (by
      rw [e1]
      simp [posPart, vlen, exModel, sdfPoseZYX, mkHom, sdfTravel, sdfKind])
    linarith
  have hp : P n!"arm" = sdfPoseZYX (some ⟨![0, 0, 1], ![Real.pi / 2, 0, 0]⟩) * mkHom (rotAbout ((vlen ![0, 0, 2])⁻¹ • ![0, 0, 2]) q) 0 := by
    have h1 : P n!"base" = 1 := r1
    have h2 : P n!"arm" = P n!"base" * _ := s1
    rw [h2, h1, e1, inv_one, Matrix.one_mul, Matrix.one_mul]
    rfl
  have hW := t2 0 P len depth hP (by rw [hd]; norm_num)
  rw [hd, hl, hp] at hW
  exact ⟨f, d, T, f1, d1, t1, hW.mono (by norm_num) le_rfl⟩

/-- a cylinder in single precision -/
example : ∃ T, convertVisualFl (binaryTrig 24 (by norm_num)).toMachine ⟨some ⟨![3, 0, 4], ![1, 0, 0]⟩, .cylinder (.fin 1) (.fin 2)⟩ =
      .ok ⟨some T, some (Geom.cylinder (.fin 1) (.fin 2)).gType, (Geom.cylinder (.fin 1) (.fin 2)).gParam⟩ ∧
    Within (1 / 1000) 5 T (sdfPoseZYX (some ⟨![3, 0, 4], ![1, 0, 0]⟩) * mkHom (elem .z (Real.pi / 2)) 0) := by
  obtain ⟨hu, hκ⟩ := binary_u 24 (by norm_num)
  obtain ⟨T, t1, t2⟩ := C136_sdf_visual (binaryTrig 24 (by norm_num)) (τ := 1 / 2 ^ 24) (A := 2) hu.le hκ.le
    (binary_γ 24 (by norm_num)) le_rfl (by norm_num) ⟨some ⟨![3, 0, 4], ![1, 0, 0]⟩, .cylinder (.fin 1) (.fin 2)⟩
    (by rintro p ⟨⟩ i; fin_cases i <;> simp)
  refine ⟨T, t1, t2.mono (by norm_num) (le_of_eq ?_)⟩
  have e : posPart (sdfPoseZYX (some ⟨![3, 0, 4], ![1, 0, 0]⟩)) = ![3, 0, 4] := posPart_mkHom _ _
  rw [show (5 : ℝ) = Real.sqrt (5 ^ 2) by simp, e, vlen]
  congr 1
  show (3 : ℝ) ^ 2 + 0 ^ 2 + 4 ^ 2 = 5 ^ 2
  norm_num

end Sdf
end PK
