import Verif.Lemmas.Ieee
import Verif.Spec.Ieee

/-!
# Forward kinematics in IEEE arithmetic is a product along the path
-/

namespace PK
open Spec

theorem perFrameI_ok {B : ℕ} (g : V3 → Fl → FM4) (axes : List V3) (L : List QItem) (idx : QItem → ℕ)
    (th cols : List (Fin B → Fl)) (hcols : broadcastCols axes.length th = .ok cols)
    (hlen : cols.length = axes.length)
    (hidx : ∀ e ∈ L, idx e < axes.length) :
    perFrameI g axes (L.map idx) th =
      .ok (L.map fun e b => g (axes.getD (idx e) 0) (cols.getD (idx e) (fun _ => .fin 0) b)) := by
  simp only [perFrameI, hcols]
  show List.mapM _ _ = _
  rw [mapM_ok _ _ (fun i => fun b => g (axes.getD i 0) (cols.getD i (fun _ => .fin 0) b))]
  · simp [List.map_map, Function.comp_def]
  · intro i hi
    obtain ⟨e, he, rfl⟩ := List.mem_map.1 hi
    have h1 := hidx e he
    have h2 : idx e < cols.length := by omega
    simp [List.getElem?_zipWith, h1, h2, List.getD]

/-- what a joint does, as the machine computes it -/
noncomputable def motionI (m : Ieee) (j : Joint) (q : Fl) : FM4 :=
  match j.jtype with
  | .revolute => axisAndAngle44I m j.axis q
  | .prismatic => axisAndDToPrisI m j.axis q
  | .fixed => finM 1

/-- the local transform, as the machine computes it -/
noncomputable def localI (m : Ieee) (f : Frame) (q : Fl) : FM4 :=
  m.mul (m.mul (finM (f.link.offset.getD 1)) (finM (f.joint.offset.getD 1))) (motionI m f.joint q)

theorem staticI_eq (m : Ieee) {root : Frame} : (Chain.staticI m root) = (visit root).map fun e =>
    m.mul (finM (e.1.link.offset.getD 1)) (finM (e.1.joint.offset.getD 1)) := by
  show List.zipWith _ (finalState root).linkOffsets (finalState root).jointOffsets = _
  rw [(finalState_tables root).linkOffsets, (finalState_tables root).jointOffsets]
  simp only [List.nil_append, zipWith_map_map]

theorem localTransformsI_ok (m : Ieee) {root : Frame} (hn : ((movingJoints root).map Joint.name).Nodup) {B : ℕ}
    (th cols : List (Fin B → Fl)) (hth : movingJoints root ≠ [] → 0 < th.length)
    (hcols : broadcastCols (movingJoints root).length th = .ok cols) :
    (Chain.init root).localTransformsI m (Chain.staticI m root) th =
      .ok ((visit root).map fun e b => localI m e.1 (colI root cols b e.1.joint)) := by
  have hrevpos : (Chain.init root).hasRevolute = true → 0 < th.length ∧ 0 < (movingJoints root).length := by
    intro h
    obtain ⟨e, he, ht⟩ := (init_hasRevolute root).1 h
    have : e.1.joint ∈ movingJoints root :=
      mem_movingJoints.2 ⟨by simp [Moving, ht], e.1, mem_visit_iff.1 ⟨e, he, rfl⟩, rfl⟩
    exact ⟨hth (List.ne_nil_of_mem this), List.length_pos_of_mem this⟩
  have hprispos : (Chain.init root).hasPrismatic = true → 0 < th.length ∧ 0 < (movingJoints root).length := by
    intro h
    obtain ⟨e, he, ht⟩ := (init_hasPrismatic root).1 h
    have : e.1.joint ∈ movingJoints root :=
      mem_movingJoints.2 ⟨by simp [Moving, ht], e.1, mem_visit_iff.1 ⟨e, he, rfl⟩, rfl⟩
    exact ⟨hth (List.ne_nil_of_mem this), List.length_pos_of_mem this⟩
  have hclen : cols.length = (movingJoints root).length := broadcastCols_length hcols
  have hpf : ∀ g : V3 → Fl → FM4, 0 < (movingJoints root).length →
      perFrameI g (Chain.init root).axes (Chain.init root).jointIndicesClamped th =
      .ok ((visit root).map fun e b => g ((Chain.init root).axes.getD
        (if e.1.joint.jtype = .fixed then 0 else column root e.1.joint) 0)
        (cols.getD (if e.1.joint.jtype = .fixed then 0 else column root e.1.joint) (fun _ => .fin 0) b)) := by
    intro g hpos
    rw [init_clamped]
    apply perFrameI_ok
    · rw [init_axes_length]; exact hcols
    · rw [init_axes_length]; exact hclen
    · intro e he
      rw [init_axes_length]
      split
      · exact hpos
      · rename_i hf; exact column_lt he hf
  have hax : ∀ e ∈ visit root, Moving e.1.joint →
      (Chain.init root).axes.getD (column root e.1.joint) 0 = e.1.joint.axis := by
    intro e he hm
    simp [List.getD, init_axes_get hn he hm]
  have heye : List.replicate (Chain.init root).numFrames (fun _ => finM 1 : Fin B → FM4) = (visit root).map fun _ => fun _ => finM 1 := by
    rw [init_numFrames, replicate_eq_map]
  have hfin : ∀ J : QItem → Fin B → FM4,
      (∀ e ∈ visit root, ∀ b, J e b = motionI m e.1.joint (colI root cols b e.1.joint)) →
      (Except.ok (List.zipWith (fun o j => fun b => m.mul o (j b)) (Chain.staticI m root) ((visit root).map J)) :
        Except Err (List (Fin B → FM4))) =
      .ok ((visit root).map fun e b => localI m e.1 (colI root cols b e.1.joint)) := by
    intro J hJ
    rw [staticI_eq m, zipWith_map_map]
    congr 1
    apply List.map_congr_left
    intro e he
    funext b
    rw [hJ e he b, localI]
  have hrev : ∀ e ∈ visit root, e.1.joint.jtype = .revolute → ∀ b,
      axisAndAngle44I m ((Chain.init root).axes.getD
        (if e.1.joint.jtype = .fixed then 0 else column root e.1.joint) 0)
        (cols.getD (if e.1.joint.jtype = .fixed then 0 else column root e.1.joint) (fun _ => .fin 0) b) =
      motionI m e.1.joint (colI root cols b e.1.joint) := by
    intro e he ht b
    have hm : Moving e.1.joint := by simp [Moving, ht]
    rw [if_neg hm, hax e he hm, motionI, ht]
    rfl
  have hpris : ∀ e ∈ visit root, e.1.joint.jtype = .prismatic → ∀ b,
      axisAndDToPrisI m ((Chain.init root).axes.getD
        (if e.1.joint.jtype = .fixed then 0 else column root e.1.joint) 0)
        (cols.getD (if e.1.joint.jtype = .fixed then 0 else column root e.1.joint) (fun _ => .fin 0) b) =
      motionI m e.1.joint (colI root cols b e.1.joint) := by
    intro e he ht b
    have hm : Moving e.1.joint := by simp [Moving, ht]
    rw [if_neg hm, hax e he hm, motionI, ht]
    rfl
  unfold Chain.localTransformsI
  cases hR : (Chain.init root).hasRevolute <;> cases hP : (Chain.init root).hasPrismatic
  · simp only [heye, Bool.false_eq_true, and_false, if_false, Bool.false_and]
    refine hfin (fun _ _ => finM 1) ?_
    intro e he b
    have h1 : e.1.joint.jtype ≠ .revolute := fun h => by
      have := (init_hasRevolute root).2 ⟨e, he, h⟩; simp [hR] at this
    have h2 : e.1.joint.jtype ≠ .prismatic := fun h => by
      have := (init_hasPrismatic root).2 ⟨e, he, h⟩; simp [hP] at this
    cases ht : e.1.joint.jtype <;> simp_all [motionI]
  · have hp := hprispos hP
    simp only [heye, Bool.false_eq_true, and_false, if_false, Bool.false_and, and_true, hp.1, if_true,
      hpf _ hp.2, Bool.not_false, Bool.and_true]
    refine (congrArg (fun l => Except.ok (List.zipWith (fun o (j : Fin B → FM4) => fun b => m.mul o (j b))
      (Chain.staticI m root) l)) ?_).trans (hfin (fun e b => if e.1.joint.jtype.index = 2 then
        axisAndDToPrisI m ((Chain.init root).axes.getD
        (if e.1.joint.jtype = .fixed then 0 else column root e.1.joint) 0)
        (cols.getD (if e.1.joint.jtype = .fixed then 0 else column root e.1.joint) (fun _ => .fin 0) b) else finM 1) ?_)
    · rw [zip_map_map, init_types, zipWith_map_map]
      apply List.map_congr_left; intro e _; funext b; simp only; split <;> rfl
    · intro e he b
      have h1 : e.1.joint.jtype ≠ .revolute := fun h => by
        have := (init_hasRevolute root).2 ⟨e, he, h⟩; simp [hR] at this
      by_cases ht : e.1.joint.jtype = .prismatic
      · rw [if_pos (by rw [ht]; rfl), hpris e he ht]
      · cases ht' : e.1.joint.jtype <;> simp_all [motionI, JType.index]
  · have hp := hrevpos hR
    simp only [heye, Bool.false_eq_true, and_false, if_false, and_true, hp.1, if_true,
      hpf _ hp.2, Bool.not_false, Bool.and_true]
    refine (congrArg (fun l => Except.ok (List.zipWith (fun o (j : Fin B → FM4) => fun b => m.mul o (j b))
      (Chain.staticI m root) l)) ?_).trans (hfin (fun e b => if e.1.joint.jtype.index = 1 then
        axisAndAngle44I m ((Chain.init root).axes.getD
        (if e.1.joint.jtype = .fixed then 0 else column root e.1.joint) 0)
        (cols.getD (if e.1.joint.jtype = .fixed then 0 else column root e.1.joint) (fun _ => .fin 0) b) else finM 1) ?_)
    · rw [zip_map_map, init_types, zipWith_map_map]
      apply List.map_congr_left; intro e _; funext b; simp only; split <;> rfl
    · intro e he b
      have h1 : e.1.joint.jtype ≠ .prismatic := fun h => by
        have := (init_hasPrismatic root).2 ⟨e, he, h⟩; simp [hP] at this
      by_cases ht : e.1.joint.jtype = .revolute
      · rw [if_pos (by rw [ht]; rfl), hrev e he ht]
      · cases ht' : e.1.joint.jtype <;> simp_all [motionI, JType.index]
  · have hp := hrevpos hR
    simp only [heye, Bool.false_eq_true, and_false, if_false, and_true, hp.1, if_true,
      hpf _ hp.2, Bool.not_true, Bool.and_self]
    refine (congrArg (fun l => Except.ok (List.zipWith (fun o (j : Fin B → FM4) => fun b => m.mul o (j b))
      (Chain.staticI m root) l)) ?_).trans (hfin (fun e b => if e.1.joint.jtype.index = 2 then
        axisAndDToPrisI m ((Chain.init root).axes.getD
        (if e.1.joint.jtype = .fixed then 0 else column root e.1.joint) 0)
        (cols.getD (if e.1.joint.jtype = .fixed then 0 else column root e.1.joint) (fun _ => .fin 0) b)
        else if e.1.joint.jtype.index = 1 then
        axisAndAngle44I m ((Chain.init root).axes.getD
        (if e.1.joint.jtype = .fixed then 0 else column root e.1.joint) 0)
        (cols.getD (if e.1.joint.jtype = .fixed then 0 else column root e.1.joint) (fun _ => .fin 0) b) else finM 1) ?_)
    · rw [zip_map_map, init_types, zipWith_map_map, zip_map_map, zipWith_map_map]
      apply List.map_congr_left; intro e _; funext b; simp only
      split
      · rfl
      · split <;> rfl
    · intro e he b
      by_cases ht : e.1.joint.jtype = .prismatic
      · rw [if_pos (by rw [ht]; rfl), hpris e he ht]
      · rw [if_neg (by cases ht' : e.1.joint.jtype <;> simp_all [JType.index])]
        by_cases ht2 : e.1.joint.jtype = .revolute
        · rw [if_pos (by rw [ht2]; rfl), hrev e he ht2]
        · cases ht' : e.1.joint.jtype <;> simp_all [motionI, JType.index]


/-- product of the local transforms along a path, in the machine's arithmetic -/
noncomputable def pathI (m : Ieee) (val : Joint → Fl) : List Frame → FM4
  | [] => finM 1
  | f :: p => p.foldl (fun T g => m.mul T (localI m g (val g.joint))) (localI m f (val f.joint))

/-- the machine's transform at position `j` -/
noncomputable def poseI (m : Ieee) (root : Frame) {B : ℕ} (cols : List (Fin B → Fl)) (j : ℕ) : Fin B → FM4 :=
  (worldFold (M := IMat m B) ⟨fun _ => finM 1⟩ root
    (((visit root).map fun e b => localI m e.1 (colI root cols b e.1.joint)).map IMat.mk) j).mat

theorem fkTensorI_ok (m : Ieee) {root : Frame} (hn : ((movingJoints root).map Joint.name).Nodup) {B : ℕ}
    (th cols : List (Fin B → Fl)) (hth : movingJoints root ≠ [] → 0 < th.length)
    (hcols : broadcastCols (movingJoints root).length th = .ok cols) :
    (Chain.init root).fkTensorI m (Chain.staticI m root) th = .ok ((List.range (visit root).length).map (poseI m root cols)) := by
  unfold Chain.fkTensorI
  rw [localTransformsI_ok m hn th cols hth hcols, init_numFrames, init_directParents, init_bfsLevels]
  simp only [ok_bind]
  rw [fkAccum_fold (M := IMat m B) ⟨fun _ => finM 1⟩ _ _ (by simp)]
  simp only [ok_bind, pure_ok, List.map_map]
  congr 1
  refine List.map_congr_left fun j _ => ?_
  simp only [Function.comp, poseI, List.map_map]

theorem poseI_path (m : Ieee) (root : Frame) {B : ℕ} (cols : List (Fin B → Fl)) {j : ℕ} {pi : List ℕ}
    {path : List Frame} (hpi : (ancestors root)[j]? = some pi)
    (hmap : pi.map (frameAt root) = path.map some) (b : Fin B) :
    poseI m root cols j b = pathI m (colI root cols b) path := by
  simp only [poseI, worldFold, hpi, Option.getD_some]
  have : ∀ (pi : List ℕ) (path : List Frame), pi.map (frameAt root) = path.map some →
      pi.map (fun i => (((visit root).map fun e b => localI m e.1 (colI root cols b e.1.joint)).map
        (IMat.mk (m := m))).getD i ⟨fun _ => finM 1⟩) =
      path.map fun f => ⟨fun b => localI m f (colI root cols b f.joint)⟩ := by
    intro pi
    induction pi with
    | nil => intro path h; cases path <;> simp_all
    | cons i pi ih =>
      intro path h
      cases path with
      | nil => simp at h
      | cons f path =>
        simp only [List.map_cons, List.cons.injEq] at h ⊢
        refine ⟨?_, ih path h.2⟩
        have hf := h.1
        simp only [frameAt, Option.map_eq_some_iff] at hf
        obtain ⟨e, he, rfl⟩ := hf
        simp [List.getD, he]
  rw [this pi path hmap]
  cases path with
  | nil => rfl
  | cons f p =>
    simp only [List.map_cons, foldMul, pathI]
    generalize hx : (⟨fun b => localI m f (colI root cols b f.joint)⟩ : IMat m B) = x
    have hx' : x.mat b = localI m f (colI root cols b f.joint) := by rw [← hx]
    rw [← hx']
    clear hx hx' hmap this
    induction p generalizing x with
    | nil => rfl
    | cons g p ih =>
      simp only [List.map_cons, List.foldl_cons]
      exact ih _

/-- the machine's forward kinematics -/
theorem forwardKinematicsI_ok (m : Ieee) {root : Frame} (h : WF root) {B : ℕ} (th : List (Fin B → Fl))
    (hth : th.length = (movingJoints root).length) :
    ∃ d, forwardKinematicsI m root th = .ok d ∧ d.keys = (preorder root).map Frame.name ∧
      ∀ p f, IsPath root p → p.getLast? = some f →
        ∃ T, d.get? f.name = some T ∧ ∀ b, T b = pathI m (colI root th b) p := by
  have hc : broadcastCols (movingJoints root).length th = .ok th := by simp [broadcastCols, hth]
  have hpos : movingJoints root ≠ [] → 0 < th.length := fun hne => by
    rw [hth]; exact List.length_pos_iff.2 hne
  have key : forwardKinematicsI m root th =
      .ok (((preorder root).map Frame.name).foldl (fun d k => Dict.set d k (poseI m root th (posOf root k))) []) := by
    unfold forwardKinematicsI
    simp only [getAllFrameIndices_ok h, fkTensorI_ok m h.joints_nodup th th hpos hc, ok_bind]
    have hnames : ∀ k ∈ (preorder root).map Frame.name, ∃ f ∈ preorder root, f.name = k := fun k hk => by
      obtain ⟨f, hf, rfl⟩ := List.mem_map.1 hk; exact ⟨f, hf, rfl⟩
    generalize (preorder root).map Frame.name = names at hnames
    generalize ([] : Dict Name (Fin B → FM4)) = d
    induction names generalizing d with
    | nil => rfl
    | cons k names ih =>
      obtain ⟨f, hf, rfl⟩ := hnames k (by simp)
      obtain ⟨j, e, he, rfl⟩ := exists_pos hf
      have hj : j < (visit root).length := (List.getElem?_eq_some_iff.1 he).1
      rw [List.map_cons, List.foldlM_cons, List.foldl_cons, ← ih (fun k hk => hnames k (by simp [hk]))]
      simp [h.posOf_eq he, Dict.item, h.idxToFrame he, List.getElem?_range hj]
      rfl
  refine ⟨_, key, ?_, ?_⟩
  · rw [keys_foldl_set ((preorder root).map Frame.name) (fun k => k)]
    simp only [List.map_id_fun', id_eq]
    exact pyUnique_of_nodup h.names_nodup
  · intro p f hp hl
    refine ⟨_, get?_foldl_set _ (fun k => k) _ (fun i _ j _ hij => by rw [hij])
      (List.mem_map.2 ⟨f, path_last_mem hp hl, rfl⟩), fun b => ?_⟩
    obtain ⟨j, e, pi, h1, h2, h3, h4⟩ := isPath_ancestors root hp
    rw [h4] at hl
    simp only [Option.some.injEq] at hl
    subst hl
    rw [h.posOf_eq h1]
    exact poseI_path m root th h2 h3 b

end PK
