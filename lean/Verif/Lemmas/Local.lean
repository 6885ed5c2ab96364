import Verif.Lemmas.Fk
import Verif.Lemmas.Rigid

/-!
# Joint columns, axes table and the per-frame local transforms
-/

namespace PK
open Spec

mutual
theorem getJoints_eq : ∀ f : Frame, f.getJoints true =
    ((preorder f).map Frame.joint).filter fun j => decide (Moving j)
  | .mk n l j cs => by
    simp only [Frame.getJoints, preorder, List.map_cons, getJointsL_eq cs]
    by_cases h : j.jtype = .fixed <;> simp [Frame.joint, Moving, h]
theorem getJointsL_eq : ∀ fs : List Frame, Frame.getJointsL fs =
    ((preorderL fs).map Frame.joint).filter fun j => decide (Moving j)
  | [] => by simp [Frame.getJointsL, preorderL]
  | c :: cs => by
    simp only [Frame.getJointsL, preorderL, List.map_append, List.filter_append, getJoints_eq c, getJointsL_eq cs]
end

theorem getJoints_true (root : Frame) : root.getJoints true = movingJoints root := getJoints_eq root

theorem jointParamNames_eq (root : Frame) : root.jointParamNames = (movingJoints root).map Joint.name := by
  rw [Frame.jointParamNames, getJoints_true, List.filter_eq_self.2]
  intro j hj
  have hm : Moving j := by simpa [movingJoints] using (List.mem_filter.1 hj).2
  simpa [Moving] using hm

theorem mem_movingJoints {root : Frame} {j : Joint} :
    j ∈ movingJoints root ↔ Moving j ∧ ∃ f ∈ preorder root, f.joint = j := by
  simp only [movingJoints, List.mem_filter, List.mem_map, decide_eq_true_eq, and_comm]

theorem mem_visit_iff {root f : Frame} : (∃ e ∈ visit root, e.1 = f) ↔ f ∈ preorder root := by
  rw [← (visit_perm root).mem_iff]; simp [List.mem_map]

theorem movingNames_visit_nodup {root : Frame} (h : ((movingJoints root).map Joint.name).Nodup) :
    ((((visit root).map fun e => e.1.joint).filter fun j => decide (Moving j)).map Joint.name).Nodup := by
  have hp : ((visit root).map fun e => e.1.joint).Perm ((preorder root).map Frame.joint) := by
    have := (visit_perm root).map Frame.joint
    simpa [List.map_map, Function.comp_def] using this
  exact ((hp.filter _).map Joint.name).nodup_iff.2 h

/-! ## axes table -/

theorem step_axes_length (names : List (Option Name)) (L : List QItem) (st : BuildState) :
    (L.foldl (BuildState.step names) st).axes.length = st.axes.length := by
  induction L generalizing st with
  | nil => rfl
  | cons e L ih =>
    rw [List.foldl_cons, ih]
    simp only [BuildState.step]; split <;> simp

theorem step_axes_other (names : List (Option Name)) (L : List QItem) (st : BuildState) (k : ℕ)
    (h : ∀ e ∈ L, Moving e.1.joint → names.idxOf e.1.joint.name ≠ k) :
    (L.foldl (BuildState.step names) st).axes[k]? = st.axes[k]? := by
  induction L generalizing st with
  | nil => rfl
  | cons e L ih =>
    rw [List.foldl_cons, ih _ fun e' he' => h e' (by simp [he'])]
    simp only [BuildState.step]
    split
    · rfl
    · rename_i hf
      rw [List.getElem?_set_ne (h e (by simp) hf)]

theorem step_axes_get (names : List (Option Name)) (L : List QItem) (st : BuildState)
    (hn : (((L.map fun e => e.1.joint).filter fun j => decide (Moving j)).map Joint.name).Nodup)
    (hmem : ∀ e ∈ L, Moving e.1.joint → e.1.joint.name ∈ names) (hlen : st.axes.length = names.length) :
    ∀ e ∈ L, Moving e.1.joint →
      (L.foldl (BuildState.step names) st).axes[names.idxOf e.1.joint.name]? = some e.1.joint.axis := by
  induction L generalizing st with
  | nil => simp
  | cons a L ih =>
    intro e he hm
    rw [List.foldl_cons]
    rcases List.mem_cons.1 he with rfl | he
    · have hm' : Moving e.1.joint := hm
      simp only [List.map_cons, List.filter_cons, hm', decide_true, if_true, List.nodup_cons] at hn
      rw [step_axes_other]
      · simp only [BuildState.step]
        rw [if_neg hm, List.getElem?_set_self]
        rw [hlen]; exact List.idxOf_lt_length_of_mem (hmem e (by simp) hm)
      · intro e' he' hm'' heq
        apply hn.1
        have : e'.1.joint.name = e.1.joint.name :=
          (List.idxOf_inj (hmem e' (by simp [he']) hm'')).1 heq
        rw [← this]
        exact List.mem_map.2 ⟨e'.1.joint, List.mem_filter.2 ⟨List.mem_map.2 ⟨e', he', rfl⟩, by simpa using hm''⟩, rfl⟩
    · apply ih
      · simp only [List.map_cons, List.filter_cons] at hn
        split at hn
        · exact (List.nodup_cons.1 hn).2
        · exact hn
      · exact fun e' he' => hmem e' (by simp [he'])
      · rw [← hlen]
        simp only [BuildState.step]; split <;> simp
      · exact he
      · exact hm

/-! ## fields of the constructed chain -/

section fields
variable (root : Frame)
theorem init_numFrames : (Chain.init root).numFrames = (visit root).length := by
  show (finalState root).idx = _
  simpa using (finalState_tables root).idx
theorem init_directParents : (Chain.init root).directParentIdx = (visit root).map fun e => e.2.1 := by
  show (finalState root).directParents = _
  simpa using (finalState_tables root).directParents
theorem init_bfsLevels : (Chain.init root).bfsLevels = bfsLevelsOf ((visit root).map fun e => e.2.2) := by
  have h := (finalState_tables root).frameDepths
  show bfsLevelsOf (finalState root).frameDepths = _
  rw [h]; simp
theorem init_types : (Chain.init root).jointTypeIndices = (visit root).map fun e => e.1.joint.jtype.index := by
  show (finalState root).jointTypeIndices = _
  simpa using (finalState_tables root).jointTypeIndices
theorem init_jointIndices : (Chain.init root).jointIndices = (visit root).map fun e =>
    if e.1.joint.jtype = .fixed then -1 else (column root e.1.joint : ℤ) := by
  show (finalState root).jointIndices = _
  have := (finalState_tables root).jointIndices
  rw [jointParamNames_eq] at this
  simpa [column] using this
theorem init_clamped : (Chain.init root).jointIndicesClamped = (visit root).map fun e =>
    if e.1.joint.jtype = .fixed then 0 else column root e.1.joint := by
  show (Chain.init root).jointIndices.map _ = _
  rw [init_jointIndices, List.map_map]
  apply List.map_congr_left
  intro e _
  by_cases h : e.1.joint.jtype = .fixed <;> simp [h]
theorem init_parents : (Chain.init root).parentsIndices = ancestors root := rfl
theorem init_nJoints : (Chain.init root).nJoints = (movingJoints root).length := by
  show root.jointParamNames.length = _
  rw [jointParamNames_eq]; simp
theorem init_axes_length : (Chain.init root).axes.length = (movingJoints root).length := by
  show (finalState root).axes.length = _
  rw [finalState_eq, step_axes_length, jointParamNames_eq]; simp

theorem zipWith_map_map {α β γ δ : Type} (f : β → γ → δ) (g : α → β) (h : α → γ) (l : List α) :
    List.zipWith f (l.map g) (l.map h) = l.map fun x => f (g x) (h x) := by
  induction l with
  | nil => rfl
  | cons a l ih => simp [ih]

theorem zip_map_map {α β γ : Type} (g : α → β) (h : α → γ) (l : List α) :
    List.zip (l.map g) (l.map h) = l.map fun x => (g x, h x) := by
  induction l with
  | nil => rfl
  | cons a l ih => simp [ih]

theorem init_staticOffsets : (Chain.init root).staticOffsets = (visit root).map fun e =>
    e.1.link.offset.getD 1 * e.1.joint.offset.getD 1 := by
  show List.zipWith _ (finalState root).linkOffsets (finalState root).jointOffsets = _
  rw [(finalState_tables root).linkOffsets, (finalState_tables root).jointOffsets]
  simp only [List.nil_append, zipWith_map_map]

theorem init_hasRevolute : (Chain.init root).hasRevolute = true ↔ ∃ e ∈ visit root, e.1.joint.jtype = .revolute := by
  show (Chain.init root).jointTypeIndices.any _ = true ↔ _
  rw [init_types]
  simp only [List.any_map, List.any_eq_true, Function.comp_apply, beq_iff_eq]
  apply exists_congr; intro e; apply and_congr_right; intro _
  cases e.1.joint.jtype <;> simp [JType.index]

theorem init_hasPrismatic : (Chain.init root).hasPrismatic = true ↔ ∃ e ∈ visit root, e.1.joint.jtype = .prismatic := by
  show (Chain.init root).jointTypeIndices.any _ = true ↔ _
  rw [init_types]
  simp only [List.any_map, List.any_eq_true, Function.comp_apply, beq_iff_eq]
  apply exists_congr; intro e; apply and_congr_right; intro _
  cases e.1.joint.jtype <;> simp [JType.index]

end fields

theorem column_lt {root : Frame} {e : QItem} (he : e ∈ visit root) (hm : Moving e.1.joint) :
    column root e.1.joint < (movingJoints root).length := by
  have : e.1.joint.name ∈ (movingJoints root).map Joint.name :=
    List.mem_map.2 ⟨_, mem_movingJoints.2 ⟨hm, e.1, mem_visit_iff.1 ⟨e, he, rfl⟩, rfl⟩, rfl⟩
  simpa [column] using List.idxOf_lt_length_of_mem this

theorem init_axes_get {root : Frame} (hn : ((movingJoints root).map Joint.name).Nodup) {e : QItem}
    (he : e ∈ visit root) (hm : Moving e.1.joint) :
    (Chain.init root).axes[column root e.1.joint]? = some e.1.joint.axis := by
  show (finalState root).axes[_]? = _
  rw [finalState_eq, column, ← jointParamNames_eq]
  apply step_axes_get
  · exact movingNames_visit_nodup hn
  · intro e he hm
    rw [jointParamNames_eq]
    exact List.mem_map.2 ⟨_, mem_movingJoints.2 ⟨hm, e.1, mem_visit_iff.1 ⟨e, he, rfl⟩, rfl⟩, rfl⟩
  · simp
  · exact he
  · exact hm

/-- `perFrame` when every gathered index is in range -/
theorem perFrame_ok {B : ℕ} (g : V3 → ℝ → M4) (axes : List V3) (L : List QItem) (idx : QItem → ℕ)
    (th cols : List (Fin B → ℝ)) (hcols : broadcastCols axes.length th = .ok cols)
    (hlen : cols.length = axes.length)
    (hidx : ∀ e ∈ L, idx e < axes.length) :
    perFrame g axes (L.map idx) th =
      .ok (L.map fun e b => g (axes.getD (idx e) 0) (cols.getD (idx e) (fun _ => 0) b)) := by
  simp only [perFrame, hcols]
  show List.mapM _ _ = _
  rw [mapM_ok _ _ (fun i => fun b => g (axes.getD i 0) (cols.getD i (fun _ => 0) b))]
  · simp [List.map_map, Function.comp_def]
  · intro i hi
    obtain ⟨e, he, rfl⟩ := List.mem_map.1 hi
    have h1 := hidx e he
    have h2 : idx e < cols.length := by omega
    simp [List.getElem?_zipWith, h1, h2, List.getD]

theorem replicate_eq_map {α β : Type} (l : List α) (b : β) : List.replicate l.length b = l.map fun _ => b := by
  simp

/-- columns after broadcasting -/
theorem broadcastCols_length {α : Type} {n : ℕ} {th cols : List α} (h : broadcastCols n th = .ok cols) :
    cols.length = n := by
  unfold broadcastCols at h
  split at h
  · simp_all
  · split at h <;> simp_all
    rw [← h]; simp

theorem localTransforms_ok {root : Frame} (hn : ((movingJoints root).map Joint.name).Nodup) {B : ℕ}
    (th cols : List (Fin B → ℝ)) (hth : movingJoints root ≠ [] → 0 < th.length)
    (hcols : broadcastCols (movingJoints root).length th = .ok cols) :
    (Chain.init root).localTransforms th =
      .ok ((visit root).map fun e b => localT e.1 (colVal root cols b e.1.joint)) := by
  have hrevpos : (Chain.init root).hasRevolute = true → 0 < th.length ∧ 0 < (movingJoints root).length := by
    intro h
    obtain ⟨e, he, ht⟩ := (init_hasRevolute root).1 h
    have : e.1.joint ∈ movingJoints root :=
      mem_movingJoints.2 ⟨by simp [Moving, ht], e.1, mem_visit_iff.1 ⟨e, he, rfl⟩, rfl⟩
    exact ⟨hth (List.ne_nil_of_mem this), List.length_pos_of_mem this⟩
  have hprispos : (Chain.init root).hasPrismatic = true → 0 < th.length ∧ 0 < (movingJoints root).length := by
    intro h
    obtain ⟨e, he, ht⟩ := (init_hasPrismatic root).1 h
    have : e.1.joint ∈ movingJoints root :=
      mem_movingJoints.2 ⟨by simp [Moving, ht], e.1, mem_visit_iff.1 ⟨e, he, rfl⟩, rfl⟩
    exact ⟨hth (List.ne_nil_of_mem this), List.length_pos_of_mem this⟩
  have hclen : cols.length = (movingJoints root).length := broadcastCols_length hcols
  have hpf : ∀ g : V3 → ℝ → M4, 0 < (movingJoints root).length →
      perFrame g (Chain.init root).axes (Chain.init root).jointIndicesClamped th =
      .ok ((visit root).map fun e b => g ((Chain.init root).axes.getD
        (if e.1.joint.jtype = .fixed then 0 else column root e.1.joint) 0)
        (cols.getD (if e.1.joint.jtype = .fixed then 0 else column root e.1.joint) (fun _ => 0) b)) := by
    intro g hpos
    rw [init_clamped]
    apply perFrame_ok
    · rw [init_axes_length]; exact hcols
    · rw [init_axes_length]; exact hclen
    · intro e he
      rw [init_axes_length]
      split
      · exact hpos
      · rename_i hf; exact column_lt he hf
  have hax : ∀ e ∈ visit root, Moving e.1.joint →
      (Chain.init root).axes.getD (column root e.1.joint) 0 = e.1.joint.axis := by
    intro e he hm
    simp [List.getD, init_axes_get hn he hm]
  have heye : List.replicate (Chain.init root).numFrames (1 : Fin B → M4) = (visit root).map fun _ => 1 := by
    rw [init_numFrames, replicate_eq_map]
  have hfin : ∀ J : QItem → Fin B → M4,
      (∀ e ∈ visit root, ∀ b, J e b = motion e.1.joint (colVal root cols b e.1.joint)) →
      (Except.ok (List.zipWith (fun o j => fun b => o * j b) (Chain.init root).staticOffsets ((visit root).map J)) :
        Except Err (List (Fin B → M4))) =
      .ok ((visit root).map fun e b => localT e.1 (colVal root cols b e.1.joint)) := by
    intro J hJ
    rw [init_staticOffsets, zipWith_map_map]
    congr 1
    apply List.map_congr_left
    intro e he
    funext b
    rw [hJ e he b, localT]
  have hrev : ∀ e ∈ visit root, e.1.joint.jtype = .revolute → ∀ b,
      axisAndAngleToMatrix44 ((Chain.init root).axes.getD
        (if e.1.joint.jtype = .fixed then 0 else column root e.1.joint) 0)
        (cols.getD (if e.1.joint.jtype = .fixed then 0 else column root e.1.joint) (fun _ => 0) b) =
      motion e.1.joint (colVal root cols b e.1.joint) := by
    intro e he ht b
    have hm : Moving e.1.joint := by simp [Moving, ht]
    rw [if_neg hm, hax e he hm, axisAndAngleToMatrix44_eq]
    simp [motion, ht, colVal]
  have hpris : ∀ e ∈ visit root, e.1.joint.jtype = .prismatic → ∀ b,
      axisAndDToPrisMatrix ((Chain.init root).axes.getD
        (if e.1.joint.jtype = .fixed then 0 else column root e.1.joint) 0)
        (cols.getD (if e.1.joint.jtype = .fixed then 0 else column root e.1.joint) (fun _ => 0) b) =
      motion e.1.joint (colVal root cols b e.1.joint) := by
    intro e he ht b
    have hm : Moving e.1.joint := by simp [Moving, ht]
    rw [if_neg hm, hax e he hm, axisAndDToPrisMatrix_eq]
    simp [motion, ht, colVal]
  unfold Chain.localTransforms
  cases hR : (Chain.init root).hasRevolute <;> cases hP : (Chain.init root).hasPrismatic
  · simp only [heye, Bool.false_eq_true, and_false, if_false, Bool.false_and]
    refine hfin (fun _ => 1) ?_
    intro e he b
    have h1 : e.1.joint.jtype ≠ .revolute := fun h => by
      have := (init_hasRevolute root).2 ⟨e, he, h⟩; simp [hR] at this
    have h2 : e.1.joint.jtype ≠ .prismatic := fun h => by
      have := (init_hasPrismatic root).2 ⟨e, he, h⟩; simp [hP] at this
    cases ht : e.1.joint.jtype <;> simp_all [motion]
  · have hp := hprispos hP
    simp only [heye, Bool.false_eq_true, and_false, if_false, Bool.false_and, and_true, hp.1, if_true,
      hpf _ hp.2, Bool.not_false, Bool.and_true]
    refine (congrArg (fun l => Except.ok (List.zipWith (fun o (j : Fin B → M4) => fun b => o * j b)
      (Chain.init root).staticOffsets l)) ?_).trans (hfin (fun e b => if e.1.joint.jtype.index = 2 then
        axisAndDToPrisMatrix ((Chain.init root).axes.getD
        (if e.1.joint.jtype = .fixed then 0 else column root e.1.joint) 0)
        (cols.getD (if e.1.joint.jtype = .fixed then 0 else column root e.1.joint) (fun _ => 0) b) else 1) ?_)
    · rw [zip_map_map, init_types, zipWith_map_map]
      apply List.map_congr_left; intro e _; funext b; simp only; split <;> rfl
    · intro e he b
      have h1 : e.1.joint.jtype ≠ .revolute := fun h => by
        have := (init_hasRevolute root).2 ⟨e, he, h⟩; simp [hR] at this
      by_cases ht : e.1.joint.jtype = .prismatic
      · rw [if_pos (by rw [ht]; rfl), hpris e he ht]
      · cases ht' : e.1.joint.jtype <;> simp_all [motion, JType.index]
  · have hp := hrevpos hR
    simp only [heye, Bool.false_eq_true, and_false, if_false, and_true, hp.1, if_true,
      hpf _ hp.2, Bool.not_false, Bool.and_true]
    refine (congrArg (fun l => Except.ok (List.zipWith (fun o (j : Fin B → M4) => fun b => o * j b)
      (Chain.init root).staticOffsets l)) ?_).trans (hfin (fun e b => if e.1.joint.jtype.index = 1 then
        axisAndAngleToMatrix44 ((Chain.init root).axes.getD
        (if e.1.joint.jtype = .fixed then 0 else column root e.1.joint) 0)
        (cols.getD (if e.1.joint.jtype = .fixed then 0 else column root e.1.joint) (fun _ => 0) b) else 1) ?_)
    · rw [zip_map_map, init_types, zipWith_map_map]
      apply List.map_congr_left; intro e _; funext b; simp only; split <;> rfl
    · intro e he b
      have h1 : e.1.joint.jtype ≠ .prismatic := fun h => by
        have := (init_hasPrismatic root).2 ⟨e, he, h⟩; simp [hP] at this
      by_cases ht : e.1.joint.jtype = .revolute
      · rw [if_pos (by rw [ht]; rfl), hrev e he ht]
      · cases ht' : e.1.joint.jtype <;> simp_all [motion, JType.index]
  · have hp := hrevpos hR
    simp only [heye, Bool.false_eq_true, and_false, if_false, and_true, hp.1, if_true,
      hpf _ hp.2, Bool.not_true, Bool.and_self]
    refine (congrArg (fun l => Except.ok (List.zipWith (fun o (j : Fin B → M4) => fun b => o * j b)
      (Chain.init root).staticOffsets l)) ?_).trans (hfin (fun e b => if e.1.joint.jtype.index = 2 then
        axisAndDToPrisMatrix ((Chain.init root).axes.getD
        (if e.1.joint.jtype = .fixed then 0 else column root e.1.joint) 0)
        (cols.getD (if e.1.joint.jtype = .fixed then 0 else column root e.1.joint) (fun _ => 0) b)
        else if e.1.joint.jtype.index = 1 then
        axisAndAngleToMatrix44 ((Chain.init root).axes.getD
        (if e.1.joint.jtype = .fixed then 0 else column root e.1.joint) 0)
        (cols.getD (if e.1.joint.jtype = .fixed then 0 else column root e.1.joint) (fun _ => 0) b) else 1) ?_)
    · rw [zip_map_map, init_types, zipWith_map_map, zip_map_map, zipWith_map_map]
      apply List.map_congr_left; intro e _; funext b; simp only
      split
      · rfl
      · split <;> rfl
    · intro e he b
      by_cases ht : e.1.joint.jtype = .prismatic
      · rw [if_pos (by rw [ht]; rfl), hpris e he ht]
      · rw [if_neg (by cases ht' : e.1.joint.jtype <;> simp_all [JType.index])]
        by_cases ht2 : e.1.joint.jtype = .revolute
        · rw [if_pos (by rw [ht2]; rfl), hrev e he ht2]
        · cases ht' : e.1.joint.jtype <;> simp_all [motion, JType.index]

end PK
