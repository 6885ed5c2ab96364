import Verif.Lemmas.Names

/-!
# C01–C08: forward kinematics
-/

namespace PK
open Spec

/-! A concrete branching tree used to show that hypotheses can be met. -/

/-- revolute base joint about z, then a prismatic arm along x and a fixed tool on two branches -/
noncomputable def exTree : Frame :=
  let j1 : Joint := { name := some ['j', '1'], jtype := .revolute, axis := ![0, 0, 1],
                      limits := some (.fin (-1), .fin 2) }
  let j2 : Joint := { name := some ['j', '2'], jtype := .prismatic, axis := ![1, 0, 0],
                      offset := some (mkHom 1 ![2, 0, 0]) }
  let j3 : Joint := { name := some ['j', '3'], jtype := .revolute, axis := ![0, 1, 0] }
  .mk ['b'] {} {} [
    .mk ['s'] { offset := some (mkHom 1 ![0, 0, 1]) } j1
      [.mk ['a'] {} j2 [], .mk ['t'] {} { name := some ['f'] } []],
    .mk ['e'] {} j3 []]

theorem exTree_wf : WF exTree := by
  constructor
  · simp [exTree, preorder, preorderL, Frame.name]
  · simp [exTree, preorder, preorderL, Frame.name]
  · simp [exTree, movingJoints, preorder, preorderL, Frame.joint, Moving]

theorem exTree_rigid : RigidTree exTree := by
  constructor
  · simp [exTree, preorder, preorderL, Frame.link]
    exact isRigid_mkHom isRot_one _
  · simp [exTree, preorder, preorderL, Frame.joint]
    exact isRigid_mkHom isRot_one _
  · simp [exTree, preorder, preorderL, Frame.joint, Moving, IsUnitV]

/-- C01: on a well-formed tree FK succeeds, its keys are the frame names in depth-first order, and each
pose is the product of the local transforms along the root-to-frame path. -/
theorem C01_fk_is_path_product (root : Frame) (h : WF root) {B : ℕ} (th : List (Fin B → ℝ))
    (hth : th.length = (movingJoints root).length) :
    ∃ d, (Chain.init root).forwardKinematics th = .ok d ∧
      d.keys = (preorder root).map Frame.name ∧
      ∀ p f, IsPath root p → p.getLast? = some f →
        ∃ T, d.get? f.name = some T ∧ ∀ b, T b = pathT (colVal root th b) p := by
  have hc : broadcastCols (movingJoints root).length th = .ok th := by simp [broadcastCols, hth]
  have hpos : movingJoints root ≠ [] → 0 < th.length := fun hne => by
    rw [hth]; exact List.length_pos_iff.2 hne
  rw [forwardKinematics_none h, forwardKinematics_some h th th hpos hc _ (by simp)]
  refine ⟨_, rfl, ?_, ?_⟩
  · rw [keys_foldl_set ((preorder root).map Frame.name) (fun k => k)]
    simp only [List.map_id_fun', id_eq]
    exact pyUnique_of_nodup h.names_nodup
  · intro p f hp hl
    refine ⟨_, get?_foldl_set _ (fun k => k) _ (fun i _ j _ hij => by rw [hij])
      (List.mem_map.2 ⟨f, path_last_mem hp hl, rfl⟩), fun b => h.pose_path th hp hl b⟩

/-- C01: every frame of the tree has a path, so the pose formula covers every reported frame. -/
theorem C01_paths_cover (root f : Frame) : f ∈ preorder root ↔ ∃ p, IsPath root p ∧ p.getLast? = some f :=
  ⟨exists_path, fun ⟨_, hp, hl⟩ => path_last_mem hp hl⟩

example : ∃ d, (Chain.init exTree).forwardKinematics (B := 2)
    [fun b => if b = 0 then 1 else 2, fun _ => 3, fun b => b] = .ok d ∧
    d.keys = [['b'], ['s'], ['a'], ['t'], ['e']] := by
  obtain ⟨d, h1, h2, -⟩ := C01_fk_is_path_product exTree exTree_wf (B := 2)
    [fun b => if b = 0 then 1 else 2, fun _ => 3, fun b => b] (by
      simp [exTree, movingJoints, preorder, preorderL, Frame.joint, Moving])
  exact ⟨d, h1, by rw [h2]; simp [exTree, preorder, preorderL, Frame.name]⟩

/-- The result for a given frame (existence by `C01`). -/
theorem fk_get {root f : Frame} (h : WF root) {B : ℕ} {th : List (Fin B → ℝ)}
    (hth : th.length = (movingJoints root).length) {d : Dict Name (Fin B → M4)}
    (hd : (Chain.init root).forwardKinematics th = .ok d) {T : Fin B → M4} (hT : d.get? f.name = some T)
    (hf : f ∈ preorder root) : ∃ p, IsPath root p ∧ p.getLast? = some f ∧ ∀ b, T b = pathT (colVal root th b) p := by
  obtain ⟨d', h1, -, h3⟩ := C01_fk_is_path_product root h th hth
  rw [hd] at h1
  obtain rfl := Except.ok.inj h1
  obtain ⟨p, hp, hl⟩ := exists_path hf
  obtain ⟨T', h4, h5⟩ := h3 p f hp hl
  rw [hT] at h4
  obtain rfl := Option.some.inj h4
  exact ⟨p, hp, hl, h5⟩

theorem isPath_mem {root : Frame} {p : List Frame} (hp : IsPath root p) : ∀ f ∈ p, f ∈ preorder root := by
  induction hp with
  | single => intro f hf; simp only [List.mem_singleton] at hf; subst hf; rw [preorder_eq]; simp
  | snoc p f c h hc ih =>
    intro g hg
    rcases List.mem_append.1 hg with hg | hg
    · exact ih g hg
    · simp only [List.mem_singleton] at hg
      subst hg
      exact path_last_mem (IsPath.snoc p f g h hc) (by simp)

theorem motion_rigid {j : Joint} (h : Moving j → IsUnitV j.axis) (q : ℝ) : IsRigid (motion j q) := by
  unfold motion
  cases ht : j.jtype
  · exact isRigid_one
  · exact isRigid_mkHom (isRot_rotAbout (h (by simp [Moving, ht])) q) _
  · exact isRigid_mkHom isRot_one _

theorem localT_rigid {root f : Frame} (h : RigidTree root) (hf : f ∈ preorder root) (q : ℝ) :
    IsRigid (localT f q) := by
  unfold localT
  refine (IsRigid.mul ?_ ?_).mul (motion_rigid (h.axis f hf) q)
  · cases ho : f.link.offset with
    | none => exact isRigid_one
    | some o => exact h.link f hf o ho
  · cases ho : f.joint.offset with
    | none => exact isRigid_one
    | some o => exact h.joint f hf o ho

theorem pathT_rigid {root : Frame} (h : RigidTree root) (val : Joint → ℝ) {p : List Frame}
    (hp : ∀ f ∈ p, f ∈ preorder root) : IsRigid (pathT val p) := by
  unfold pathT
  induction p with
  | nil => simpa using isRigid_one
  | cons f p ih =>
    rw [List.map_cons, List.prod_cons]
    exact (localT_rigid h (hp f (by simp)) _).mul (ih fun g hg => hp g (by simp [hg]))

/-- C02: every reported pose is rigid. -/
theorem C02_fk_rigid (root : Frame) (h : WF root) (hr : RigidTree root) {B : ℕ} (th : List (Fin B → ℝ))
    (hth : th.length = (movingJoints root).length) :
    ∃ d, (Chain.init root).forwardKinematics th = .ok d ∧
      ∀ f ∈ preorder root, ∃ T, d.get? f.name = some T ∧ ∀ b, IsRigid (T b) := by
  obtain ⟨d, h1, -, h3⟩ := C01_fk_is_path_product root h th hth
  refine ⟨d, h1, fun f hf => ?_⟩
  obtain ⟨p, hp, hl⟩ := exists_path hf
  obtain ⟨T, h4, h5⟩ := h3 p f hp hl
  exact ⟨T, h4, fun b => by rw [h5]; exact pathT_rigid hr _ (isPath_mem hp)⟩

/-- C02: the constructor of a joint normalises every non-zero axis, so the axis hypothesis of
`RigidTree` holds for every joint built with a non-zero axis (or with none). -/
theorem C02_constructor_normalises_axis (name : Option Name) (offset : Option M4) (ty : JType) (a : V3)
    (l v e : Option (Fl × Fl)) (ha : a ≠ 0) :
    IsUnitV (Joint.init name offset ty (some a) l v e).axis ∧ IsUnitV (Joint.init name offset ty none l v e).axis := by
  constructor
  · rw [isUnitV_iff_dot]
    exact dot_unit_of_norm fun h0 => ha (norm3_eq_zero.1 h0)
  · simp [Joint.init, normalizeAxis, IsUnitV, norm3, dot]

example : ∃ d, (Chain.init exTree).forwardKinematics (B := 1) [fun _ => 1, fun _ => 3, fun _ => 2] = .ok d ∧
      ∀ f ∈ preorder exTree, ∃ T, d.get? f.name = some T ∧ ∀ b, IsRigid (T b) :=
  C02_fk_rigid exTree exTree_wf exTree_rigid _ (by simp [exTree, movingJoints, preorder, preorderL, Frame.joint, Moving])

theorem colVal_eq {root : Frame} {B : ℕ} {th : List (Fin B → ℝ)} {b : Fin B} {j : Joint} {col : Fin B → ℝ}
    (h : th[column root j]? = some col) : colVal root th b j = col b := by simp [colVal, List.getD, h]

/-- C03: rows are independent. Row `b` of one call equals row `b'` of any other call (of any batch size,
in particular the single-row call) whose row `b'` holds the same joint values. -/
theorem C03_fk_rowwise (root : Frame) (h : WF root) {B B' : ℕ} (th : List (Fin B → ℝ)) (th' : List (Fin B' → ℝ))
    (b : Fin B) (b' : Fin B') (hth : th.length = (movingJoints root).length)
    (hrow : th.map (fun c => c b) = th'.map fun c => c b')
    {d : Dict Name (Fin B → M4)} {d' : Dict Name (Fin B' → M4)}
    (hd : (Chain.init root).forwardKinematics th = .ok d) (hd' : (Chain.init root).forwardKinematics th' = .ok d')
    (f : Frame) (hf : f ∈ preorder root) :
    ∃ T T', d.get? f.name = some T ∧ d'.get? f.name = some T' ∧ T b = T' b' := by
  have hlen : th'.length = (movingJoints root).length := by
    have := congrArg List.length hrow; simp at this; omega
  obtain ⟨_, h1, -, h3⟩ := C01_fk_is_path_product root h th hth
  obtain ⟨_, h1', -, h3'⟩ := C01_fk_is_path_product root h th' hlen
  rw [hd] at h1; obtain rfl := Except.ok.inj h1
  rw [hd'] at h1'; obtain rfl := Except.ok.inj h1'
  obtain ⟨p, hp, hl⟩ := exists_path hf
  obtain ⟨T, h4, h5⟩ := h3 p f hp hl
  obtain ⟨T', h4', h5'⟩ := h3' p f hp hl
  refine ⟨T, T', h4, h4', ?_⟩
  rw [h5, h5']
  congr 1
  funext j
  have := congrArg (fun l => l[column root j]?) hrow
  simp only [List.getElem?_map] at this
  cases h6 : th[column root j]? <;> cases h7 : th'[column root j]? <;> simp_all [colVal, List.getD]

/-- C03: the hypothesis of `C03_fk_rowwise` is met by a row of any batch and the one-row tensor of it. -/
theorem C03_single_row (root : Frame) (h : WF root) {B : ℕ} (th : List (Fin B → ℝ)) (b : Fin B)
    (hth : th.length = (movingJoints root).length) (f : Frame) (hf : f ∈ preorder root) :
    ∃ d d', (Chain.init root).forwardKinematics th = .ok d ∧
      (Chain.init root).forwardKinematics (th.map fun c => fun _ : Fin 1 => c b) = .ok d' ∧
      ∃ T T', d.get? f.name = some T ∧ d'.get? f.name = some T' ∧ T b = T' 0 := by
  obtain ⟨d, h1, -⟩ := C01_fk_is_path_product root h th hth
  obtain ⟨d', h1', -⟩ := C01_fk_is_path_product root h (th.map fun c => fun _ : Fin 1 => c b) (by simpa using hth)
  exact ⟨d, d', h1, h1', C03_fk_rowwise root h th _ b 0 hth (by simp [List.map_map, Function.comp_def]) h1 h1' f hf⟩

/-- C04: querying by names returns exactly the requested frames, with the poses of the full query. -/
theorem C04_subset_agrees (root : Frame) (h : WF root) {B : ℕ} (th : List (Fin B → ℝ))
    (hth : th.length = (movingJoints root).length) (names : List Name)
    (hn : ∀ k ∈ names, ∃ f ∈ preorder root, f.name = k) :
    ∃ idx d full, (Chain.init root).getFrameIndices names = .ok idx ∧
      (Chain.init root).forwardKinematics th (some idx) = .ok d ∧
      (Chain.init root).forwardKinematics th = .ok full ∧
      (∀ k, k ∈ d.keys ↔ k ∈ names) ∧ d.keys.Nodup ∧
      ∀ k ∈ names, ∃ T, d.get? k = some T ∧ full.get? k = some T := by
  have hc : broadcastCols (movingJoints root).length th = .ok th := by simp [broadcastCols, hth]
  have hpos : movingJoints root ≠ [] → 0 < th.length := fun hne => by
    rw [hth]; exact List.length_pos_iff.2 hne
  refine ⟨_, _, _, h.getFrameIndices names hn, forwardKinematics_some h th th hpos hc names hn,
    (forwardKinematics_none h th).trans (forwardKinematics_some h th th hpos hc _ (by simp)), ?_, ?_, ?_⟩
  · intro k
    rw [keys_foldl_set names (fun k => k), mem_pyUnique]; simp
  · rw [keys_foldl_set names (fun k => k)]; exact pyUnique_nodup _
  · intro k hk
    refine ⟨_, get?_foldl_set _ (fun k => k) _ (fun i _ j _ hij => by rw [hij]) hk,
      get?_foldl_set _ (fun k => k) (fun k => poseAt root th (posOf root k)) (fun i _ j _ hij => by rw [hij]) ?_⟩
    obtain ⟨f, hf, rfl⟩ := hn k hk
    exact List.mem_map.2 ⟨f, hf, rfl⟩

/-- C04: an unknown name raises KeyError. -/
theorem C04_unknown_name (root : Frame) (h : WF root) (names : List Name)
    (hn : ∃ k ∈ names, ∀ f ∈ preorder root, f.name ≠ k) :
    (Chain.init root).getFrameIndices names = .error .keyError := by
  apply mapM_error
  · intro k _
    cases hk : (Chain.init root).frameToIdx.get? k with
    | none => right; simp [Dict.item, hk]
    | some v => left; exact ⟨v, by simp [Dict.item, hk]⟩
  · obtain ⟨k, hk, hne⟩ := hn
    exact ⟨k, hk, by simp [Dict.item, h.frameToIdx_none hne]⟩

example : ∃ f ∈ preorder exTree, f.name = ['t'] := by simp [exTree, preorder, preorderL, Frame.name]
example : ∃ k ∈ [['q'], ['b']], ∀ f ∈ preorder exTree, f.name ≠ k := by
  simp [exTree, preorder, preorderL, Frame.name]

/-! ## C05, C06 -/

theorem below_preorder {root f g : Frame} (hf : f ∈ preorder root) (h : Below f g) : g ∈ preorder root := by
  induction h with
  | refl => exact hf
  | child g c _ hc ih =>
    obtain ⟨p, hp, hl⟩ := exists_path ih
    obtain ⟨p0, rfl⟩ := List.getLast?_eq_some_iff.1 hl
    exact path_last_mem (IsPath.snoc p0 g c hp hc) (by simp)

/-- every frame on a path is above its last frame -/
theorem path_below {root : Frame} {p : List Frame} (hp : IsPath root p) :
    ∀ f ∈ p, ∀ g, p.getLast? = some g → Below f g := by
  induction hp with
  | single =>
    intro f hf g hg
    simp at hf hg; subst hf; subst hg; exact .refl
  | snoc p a c _ hc ih =>
    intro f hf g hg
    simp only [List.getLast?_append, List.getLast?_singleton, Option.some_or, Option.some.injEq] at hg
    subst hg
    rcases List.mem_append.1 hf with hf | hf
    · exact .child a _ (ih f hf a (by simp)) hc
    · simp only [List.mem_singleton] at hf; subst hf; exact .refl

/-- moving joints of different frames have different columns -/
theorem Spec.WF.column_inj {root f g : Frame} (h : WF root) (hf : f ∈ preorder root) (hg : g ∈ preorder root)
    (mf : Moving f.joint) (mg : Moving g.joint) (hc : column root f.joint = column root g.joint) : f = g := by
  have hmem : f.joint.name ∈ (movingJoints root).map Joint.name :=
    List.mem_map.2 ⟨_, mem_movingJoints.2 ⟨mf, f, hf, rfl⟩, rfl⟩
  have hname : f.joint.name = g.joint.name := (List.idxOf_inj hmem).1 hc
  have hn := h.joints_nodup
  rw [movingJoints, List.filter_map, List.map_map] at hn
  exact List.inj_on_of_nodup_map hn (List.mem_filter.2 ⟨hf, by simpa using mf⟩)
    (List.mem_filter.2 ⟨hg, by simpa using mg⟩) hname

theorem motion_fixed {j : Joint} (h : ¬ Moving j) (q q' : ℝ) : motion j q = motion j q' := by
  have : j.jtype = .fixed := by simpa [Moving] using h
  simp [motion, this]

theorem pathT_congr {val val' : Joint → ℝ} {p : List Frame}
    (h : ∀ f ∈ p, motion f.joint (val f.joint) = motion f.joint (val' f.joint)) : pathT val p = pathT val' p := by
  unfold pathT
  congr 1
  apply List.map_congr_left
  intro f hf
  rw [localT, localT, h f hf]

/-- C05: replacing the column of the joint of frame `f` leaves every frame that is not at or below `f`
where it was. -/
theorem C05_only_descendants_move (root : Frame) (h : WF root) {B : ℕ} (th : List (Fin B → ℝ))
    (hth : th.length = (movingJoints root).length) (f g : Frame) (hf : f ∈ preorder root)
    (hg : g ∈ preorder root) (mf : Moving f.joint) (hb : ¬ Below f g) (col : Fin B → ℝ) :
    ∃ d d' T, (Chain.init root).forwardKinematics th = .ok d ∧
      (Chain.init root).forwardKinematics (th.set (column root f.joint) col) = .ok d' ∧
      d.get? g.name = some T ∧ d'.get? g.name = some T := by
  obtain ⟨d, h1, -, h3⟩ := C01_fk_is_path_product root h th hth
  obtain ⟨d', h1', -, h3'⟩ := C01_fk_is_path_product root h (th.set (column root f.joint) col) (by simpa using hth)
  obtain ⟨p, hp, hl⟩ := exists_path hg
  obtain ⟨T, h4, h5⟩ := h3 p g hp hl
  obtain ⟨T', h4', h5'⟩ := h3' p g hp hl
  refine ⟨d, d', T, h1, h1', h4, ?_⟩
  rw [h4']
  congr 1
  funext b
  rw [h5, h5']
  apply pathT_congr
  intro a ha
  by_cases ma : Moving a.joint
  · have hne : column root f.joint ≠ column root a.joint := by
      intro hc
      have := h.column_inj hf (isPath_mem hp a ha) mf ma hc
      subst this
      exact hb (path_below hp f ha g hl)
    congr 1
    simp [colVal, List.getD, List.getElem?_set_ne hne]
  · exact motion_fixed ma _ _

example : ∃ f ∈ preorder exTree, Moving f.joint ∧ ∃ g ∈ preorder exTree, ¬ Below f g := by
  have hs : ∀ x, Below (.mk ['e'] {} { name := some ['j', '3'], jtype := .revolute, axis := ![0, 1, 0] } []) x →
      x.name = ['e'] ∧ x.children = [] := by
    intro x hx
    induction hx with
    | refl => exact ⟨rfl, rfl⟩
    | child g c _ hc ih => rw [ih.2] at hc; simp at hc
  refine ⟨.mk ['e'] {} { name := some ['j', '3'], jtype := .revolute, axis := ![0, 1, 0] } [], ?_, ?_, exTree, ?_, ?_⟩
  · simp [exTree, preorder, preorderL]
  · simp [Moving, Frame.joint]
  · rw [preorder_eq]; simp
  · intro hb
    have := (hs _ hb).1
    simp [exTree, Frame.name] at this

theorem rotAbout_add_int (k : V3) (θ : ℝ) (n : ℤ) : rotAbout k (θ + n * (2 * Real.pi)) = rotAbout k θ := by
  simp only [rotAbout, rodrigues, Real.cos_add_int_mul_two_pi, Real.sin_add_int_mul_two_pi]

/-- equal products along every path give equal results -/
theorem fk_eq_of_paths {root : Frame} (h : WF root) {B : ℕ} (th th' : List (Fin B → ℝ))
    (hth : th.length = (movingJoints root).length) (hth' : th'.length = (movingJoints root).length)
    (hp : ∀ p, IsPath root p → ∀ b, pathT (colVal root th' b) p = pathT (colVal root th b) p) :
    (Chain.init root).forwardKinematics th' = (Chain.init root).forwardKinematics th := by
  have hpos : movingJoints root ≠ [] → 0 < (movingJoints root).length := List.length_pos_iff.2
  have e1 := forwardKinematics_some h th th (by rw [hth]; exact hpos) (by simp [broadcastCols, hth])
    ((preorder root).map Frame.name) (by simp)
  have e2 := forwardKinematics_some h th' th' (by rw [hth']; exact hpos) (by simp [broadcastCols, hth'])
    ((preorder root).map Frame.name) (by simp)
  rw [forwardKinematics_none h, forwardKinematics_none h, e1, e2]
  refine congrArg Except.ok (List.foldl_ext _ _ _ ?_)
  intro d k hk
  refine congrArg _ ?_
  obtain ⟨f, hf, rfl⟩ := List.mem_map.1 hk
  obtain ⟨p, hpp, hl⟩ := exists_path hf
  funext b
  rw [h.pose_path th hpp hl, h.pose_path th' hpp hl, hp p hpp b]

example : ∃ f ∈ preorder exTree, f.joint.jtype = .revolute := by
  simp [exTree, preorder, preorderL, Frame.joint]

/-- C06: adding (possibly per-row) integer multiples of 2π to a revolute joint changes no pose. -/
theorem C06_revolute_periodic (root : Frame) (h : WF root) {B : ℕ} (th : List (Fin B → ℝ))
    (hth : th.length = (movingJoints root).length) (f : Frame) (hf : f ∈ preorder root)
    (hrev : f.joint.jtype = .revolute) (k : Fin B → ℤ) :
    ∃ d, (Chain.init root).forwardKinematics th = .ok d ∧
      (Chain.init root).forwardKinematics (th.modify (column root f.joint)
        fun c b => c b + k b * (2 * Real.pi)) = .ok d := by
  have mf : Moving f.joint := by simp [Moving, hrev]
  obtain ⟨d, hd, -⟩ := C01_fk_is_path_product root h th hth
  refine ⟨d, hd, (fk_eq_of_paths h th _ hth (by rw [List.length_modify, hth]) ?_).trans hd⟩
  intro p hp b
  apply pathT_congr
  intro a ha
  by_cases ma : Moving a.joint
  · by_cases hc : column root f.joint = column root a.joint
    · have := h.column_inj hf (isPath_mem hp a ha) mf ma hc
      subst this
      have hlt : column root f.joint < th.length := by
        obtain ⟨j, e, he, rfl⟩ := exists_pos hf
        rw [hth]; exact column_lt (List.mem_of_getElem? he) mf
      have e1 : colVal root (th.modify (column root f.joint) fun c b => c b + k b * (2 * Real.pi)) b f.joint =
          colVal root th b f.joint + k b * (2 * Real.pi) := by
        simp [colVal, List.getD, List.getElem?_eq_getElem hlt]
      rw [e1]
      simp only [motion, hrev, rotAbout_add_int]
    · congr 1
      simp [colVal, List.getD, hc]
  · exact motion_fixed ma _ _

/-! ## C07 -/

/-- C07: the parameter names are the names of the moving joints in depth-first order, `n_joints` is
their number, and column `i` drives the `i`-th of them. -/
theorem C07_columns (root : Frame) (h : WF root) :
    (Chain.init root).getJointParameterNames = (movingJoints root).map Joint.name ∧
    (Chain.init root).nJoints = (movingJoints root).length ∧
    ∀ i j, (movingJoints root)[i]? = some j → column root j = i := by
  refine ⟨jointParamNames_eq root, init_nJoints root, fun i j hij => ?_⟩
  have hi : i < (movingJoints root).length := (List.getElem?_eq_some_iff.1 hij).1
  have hj : (movingJoints root)[i] = j := (List.getElem?_eq_some_iff.1 hij).2
  rw [column]
  have := h.joints_nodup.idxOf_getElem i (by simpa using hi)
  rw [List.getElem_map, hj] at this
  exact this

/-- C07: limits, velocity and effort arrays and `low`/`high` follow the same order, with -inf/+inf for
absent limits. -/
theorem C07_limits (root : Frame) :
    (Chain.init root).low = (movingJoints root).map (fun j => (j.limits.map Prod.fst).getD .ninf) ∧
    (Chain.init root).high = (movingJoints root).map (fun j => (j.limits.map Prod.snd).getD .pinf) ∧
    (Chain.init root).getJointLimits = ((Chain.init root).low, (Chain.init root).high) ∧
    (Chain.init root).getJointVelocityLimits =
      ((movingJoints root).map (fun j => (j.velocityLimits.map Prod.fst).getD .ninf),
       (movingJoints root).map (fun j => (j.velocityLimits.map Prod.snd).getD .pinf)) ∧
    (Chain.init root).getJointEffortLimits =
      ((movingJoints root).map (fun j => (j.effortLimits.map Prod.fst).getD .ninf),
       (movingJoints root).map (fun j => (j.effortLimits.map Prod.snd).getD .pinf)) := by
  have key : ∀ param : Joint → Option (Fl × Fl), limitArrays param (root.getJoints true) =
      ((movingJoints root).map (fun j => ((param j).map Prod.fst).getD .ninf),
       (movingJoints root).map (fun j => ((param j).map Prod.snd).getD .pinf)) := by
    intro param
    rw [getJoints_true, limitArrays]
    congr 1 <;> (apply List.map_congr_left; intro j _; cases param j <;> rfl)
  refine ⟨?_, ?_, rfl, key _, key _⟩
  · show (limitArrays Joint.limits (root.getJoints true)).1 = _
    rw [key]
  · show (limitArrays Joint.limits (root.getJoints true)).2 = _
    rw [key]

example : (movingJoints exTree).map Joint.name = [some ['j', '1'], some ['j', '2'], some ['j', '3']] := by
  simp [exTree, movingJoints, preorder, preorderL, Frame.joint, Moving]

end PK
