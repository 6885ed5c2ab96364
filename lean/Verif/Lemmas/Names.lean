import Verif.Lemmas.Local

/-!
# Name tables and the dictionary returned by `forward_kinematics`
-/

namespace PK
open Spec

/-! ## `pyUnique` -/

theorem mem_pyUnique {α : Type} [DecidableEq α] {l : List α} {a : α} : a ∈ pyUnique l ↔ a ∈ l := by
  induction l with
  | nil => simp [pyUnique]
  | cons b l ih =>
    simp only [pyUnique, List.mem_cons, List.mem_filter, ih, decide_eq_true_eq]
    by_cases h : a = b <;> simp [h]

theorem pyUnique_nodup {α : Type} [DecidableEq α] (l : List α) : (pyUnique l).Nodup := by
  induction l with
  | nil => simp [pyUnique]
  | cons b l ih =>
    simp only [pyUnique, List.nodup_cons, List.mem_filter, decide_eq_true_eq]
    exact ⟨by simp, ih.filter _⟩

theorem pyUnique_of_nodup {α : Type} [DecidableEq α] {l : List α} (h : l.Nodup) : pyUnique l = l := by
  induction l with
  | nil => rfl
  | cons b l ih =>
    rw [List.nodup_cons] at h
    simp only [pyUnique, ih h.2]
    congr 1
    rw [List.filter_eq_self]
    intro a ha
    simp only [decide_eq_true_eq]
    rintro rfl; exact h.1 ha

theorem pyUnique_append_singleton {α : Type} [DecidableEq α] (l : List α) (a : α) :
    pyUnique (l ++ [a]) = if a ∈ l then pyUnique l else pyUnique l ++ [a] := by
  induction l with
  | nil => simp [pyUnique]
  | cons b l ih =>
    simp only [List.cons_append, pyUnique, ih, List.mem_cons]
    by_cases h1 : a ∈ l
    · simp [h1]
    · by_cases h2 : a = b
      · subst h2; simp [h1, List.filter_append]
      · simp [h1, h2, List.filter_append]

/-! ## dictionaries built by repeated assignment -/

theorem keys_foldl_set {K V ι : Type} [DecidableEq K] (l : List ι) (f : ι → K) (g : ι → V) :
    (l.foldl (fun d i => Dict.set d (f i) (g i)) []).keys = pyUnique (l.map f) := by
  induction l using List.reverseRecOn with
  | nil => rfl
  | append_singleton l i ih =>
    rw [List.foldl_append, List.map_append]
    simp only [List.foldl_cons, List.foldl_nil, List.map_cons, List.map_nil]
    rw [pyUnique_append_singleton]
    by_cases h : f i ∈ l.map f
    · rw [if_pos h, Dict.keys_set_of_mem, ih]
      rw [ih]; exact mem_pyUnique.2 h
    · rw [if_neg h, Dict.keys_set_of_not_mem]
      · simp only [Dict.keys, List.map_append, List.map_cons, List.map_nil]
        rw [← ih]; rfl
      · rw [ih]; exact fun h' => h (mem_pyUnique.1 h')

theorem get?_foldl_set {K V ι : Type} [DecidableEq K] (l : List ι) (f : ι → K) (g : ι → V)
    (hinj : ∀ i ∈ l, ∀ j ∈ l, f i = f j → g i = g j) {i : ι} (hi : i ∈ l) :
    Dict.get? (l.foldl (fun d i => Dict.set d (f i) (g i)) []) (f i) = some (g i) := by
  induction l using List.reverseRecOn with
  | nil => simp at hi
  | append_singleton l j ih =>
    rw [List.foldl_append]
    simp only [List.foldl_cons, List.foldl_nil]
    rw [Dict.get?_set]
    by_cases h : f j = f i
    · rw [if_pos h, hinj j (by simp) i hi h]
    · rw [if_neg h]
      have : i ∈ l := by
        rcases List.mem_append.1 hi with h' | h'
        · exact h'
        · simp at h'; subst h'; exact absurd rfl h
      exact ih (fun a ha b hb => hinj a (by simp [ha]) b (by simp [hb])) this

/-! ## stripping -/

theorem dropWhile_nl {s : Name} (h : s.head? ≠ some '\n') : s.dropWhile (· == '\n') = s := by
  cases s with
  | nil => rfl
  | cons a s =>
    rw [List.dropWhile_cons_of_neg]
    simpa using h

theorem stripNl_eq {s : Name} (h1 : s.head? ≠ some '\n') (h2 : s.getLast? ≠ some '\n') : stripNl s = s := by
  rw [stripNl, dropWhile_nl h1, dropWhile_nl, List.reverse_reverse]
  simpa using h2

theorem Spec.WF.strip {root : Frame} (h : WF root) {f : Frame} (hf : f ∈ preorder root) : stripNl f.name = f.name :=
  stripNl_eq (h.no_newline f hf).1 (h.no_newline f hf).2

/-! ## index tables -/

theorem foldl_frameToIdx (names : List (Option Name)) (L : List QItem) (st : BuildState) (k : Name)
    (hk : ∀ e ∈ L, stripNl e.1.name ≠ k) :
    (L.foldl (BuildState.step names) st).frameToIdx.get? k = st.frameToIdx.get? k := by
  induction L generalizing st with
  | nil => rfl
  | cons e L ih =>
    rw [List.foldl_cons, ih _ fun e' he' => hk e' (by simp [he'])]
    simp only [BuildState.step]
    rw [Dict.get?_set, if_neg (hk e (by simp))]

theorem foldl_frameToIdx_get (names : List (Option Name)) (L : List QItem) (st : BuildState)
    (hn : (L.map fun e => stripNl e.1.name).Nodup) (j : ℕ) (e : QItem) (h : L[j]? = some e) :
    (L.foldl (BuildState.step names) st).frameToIdx.get? (stripNl e.1.name) = some (st.idx + j) := by
  induction L generalizing st j with
  | nil => simp at h
  | cons a L ih =>
    rw [List.map_cons, List.nodup_cons] at hn
    rw [List.foldl_cons]
    cases j with
    | zero =>
      simp only [List.getElem?_cons_zero, Option.some.injEq] at h
      subst h
      rw [foldl_frameToIdx]
      · simp [BuildState.step, Dict.get?_set]
      · intro e' he' heq
        exact hn.1 (List.mem_map.2 ⟨e', he', heq⟩)
    | succ j =>
      rw [ih (st.step names a) hn.2 j (by simpa using h)]
      simp [BuildState.step]; omega

theorem foldl_idxToFrame (names : List (Option Name)) (L : List QItem) (st : BuildState)
    (hk : ∀ k ∈ st.idxToFrame.keys, k < st.idx) (i : ℕ) :
    (L.foldl (BuildState.step names) st).idxToFrame.get? i =
      if i < st.idx then st.idxToFrame.get? i else (L[i - st.idx]?).map fun e => stripNl e.1.name := by
  induction L generalizing st with
  | nil =>
    split
    · rfl
    · rename_i h
      simp only [List.foldl_nil, List.getElem?_nil, Option.map_none]
      rw [Dict.get?_eq_none_iff]
      intro h'; exact h (hk i h')
  | cons e L ih =>
    rw [List.foldl_cons, ih]
    · show (if i < st.idx + 1 then (st.idxToFrame.set st.idx (stripNl e.1.name)).get? i
        else (L[i - (st.idx + 1)]?).map fun e => stripNl e.1.name) = _
      by_cases h1 : i < st.idx
      · rw [if_pos (by omega), if_pos h1, Dict.get?_set, if_neg (by omega)]
      · rw [if_neg h1]
        by_cases h2 : i = st.idx
        · subst h2; simp [Dict.get?_set]
        · rw [if_neg (by omega)]
          obtain ⟨k, rfl⟩ : ∃ k, i = st.idx + 1 + k := ⟨i - st.idx - 1, by omega⟩
          rw [show st.idx + 1 + k - (st.idx + 1) = k by omega, show st.idx + 1 + k - st.idx = k + 1 by omega]
          simp
    · intro k hk'
      simp only [BuildState.step] at hk' ⊢
      by_cases h : st.idx ∈ st.idxToFrame.keys
      · rw [Dict.keys_set_of_mem _ _ _ h] at hk'
        have := hk k hk'; omega
      · rw [Dict.keys_set_of_not_mem _ _ _ h] at hk'
        simp only [Dict.keys, List.map_append, List.mem_append, List.map_cons, List.map_nil,
          List.mem_singleton] at hk'
        rcases hk' with hk' | hk'
        · have := hk k hk'; omega
        · omega

theorem init_idxToFrame (root : Frame) (i : ℕ) :
    (Chain.init root).idxToFrame.get? i = ((visit root)[i]?).map fun e => stripNl e.1.name := by
  show (finalState root).idxToFrame.get? i = _
  rw [finalState_eq, foldl_idxToFrame _ _ _ (by simp [Dict.keys])]
  simp

theorem visit_mem_preorder {root : Frame} {i : ℕ} {e : QItem} (h : (visit root)[i]? = some e) :
    e.1 ∈ preorder root := mem_visit_iff.1 ⟨e, List.mem_of_getElem? h, rfl⟩

theorem Spec.WF.visit_names {root : Frame} (h : WF root) :
    ((visit root).map fun e => stripNl e.1.name) = (visit root).map fun e => e.1.name := by
  apply List.map_congr_left
  intro e he
  exact h.strip (mem_visit_iff.1 ⟨e, he, rfl⟩)

theorem Spec.WF.visit_nodup {root : Frame} (h : WF root) : ((visit root).map fun e => e.1.name).Nodup := by
  have := ((visit_perm root).map Frame.name).nodup_iff.2 h.names_nodup
  simpa [List.map_map, Function.comp_def] using this

theorem Spec.WF.frameToIdx {root : Frame} (h : WF root) {j : ℕ} {e : QItem} (he : (visit root)[j]? = some e) :
    (Chain.init root).frameToIdx.get? e.1.name = some j := by
  show (finalState root).frameToIdx.get? _ = _
  rw [finalState_eq]
  conv_lhs => rw [← h.strip (visit_mem_preorder he)]
  rw [foldl_frameToIdx_get _ _ _ (by rw [h.visit_names]; exact h.visit_nodup) j e he]
  simp

theorem Spec.WF.frameToIdx_none {root : Frame} (h : WF root) {k : Name} (hk : ∀ f ∈ preorder root, f.name ≠ k) :
    (Chain.init root).frameToIdx.get? k = none := by
  show (finalState root).frameToIdx.get? _ = _
  rw [finalState_eq, foldl_frameToIdx]
  · rfl
  · intro e he
    have hm := mem_visit_iff.1 ⟨e, he, rfl⟩
    rw [h.strip hm]; exact hk _ hm

theorem Spec.WF.idxToFrame {root : Frame} (h : WF root) {j : ℕ} {e : QItem} (he : (visit root)[j]? = some e) :
    (Chain.init root).idxToFrame.get? j = some e.1.name := by
  rw [init_idxToFrame, he]
  simp [h.strip (visit_mem_preorder he)]

/-- each frame has exactly one position -/
theorem Spec.WF.pos_unique {root : Frame} (h : WF root) {i j : ℕ} {e e' : QItem} (hi : (visit root)[i]? = some e)
    (hj : (visit root)[j]? = some e') (hn : e.1.name = e'.1.name) : i = j := by
  have h1 := h.frameToIdx hi
  have h2 := h.frameToIdx hj
  rw [hn] at h1; rw [h1] at h2; exact Option.some.inj h2

theorem exists_pos {root f : Frame} (hf : f ∈ preorder root) : ∃ (j : ℕ) (e : QItem), (visit root)[j]? = some e ∧ e.1 = f := by
  obtain ⟨e, he, rfl⟩ := mem_visit_iff.2 hf
  obtain ⟨j, hj⟩ := List.getElem?_of_mem he
  exact ⟨j, e, hj, rfl⟩

mutual
theorem getFrameNames_eq : ∀ f : Frame, f.getFrameNames false = (preorder f).map Frame.name
  | .mk n l j cs => by
    simp [Frame.getFrameNames, preorder, Frame.name, getFrameNamesL_eq cs]
theorem getFrameNamesL_eq : ∀ fs : List Frame, Frame.getFrameNamesL false fs = (preorderL fs).map Frame.name
  | [] => by simp [Frame.getFrameNamesL, preorderL]
  | c :: cs => by
    simp [Frame.getFrameNamesL, preorderL, getFrameNames_eq c, getFrameNamesL_eq cs]
end

/-- position of a frame in the visiting order -/
noncomputable def posOf (root : Frame) (k : Name) : ℕ := ((Chain.init root).frameToIdx.get? k).getD 0

theorem Spec.WF.posOf_eq {root : Frame} (h : WF root) {j : ℕ} {e : QItem} (he : (visit root)[j]? = some e) :
    posOf root e.1.name = j := by simp [posOf, h.frameToIdx he]

theorem Spec.WF.getFrameIndices {root : Frame} (h : WF root) (names : List Name)
    (hn : ∀ k ∈ names, ∃ f ∈ preorder root, f.name = k) :
    (Chain.init root).getFrameIndices names = .ok (names.map (posOf root)) := by
  apply mapM_ok
  intro k hk
  obtain ⟨f, hf, rfl⟩ := hn k hk
  obtain ⟨j, e, he, rfl⟩ := exists_pos hf
  simp [Dict.item, h.frameToIdx he, posOf]

theorem mapM_error {α β : Type} (l : List α) (f : α → Except Err β) (err : Err)
    (h : ∀ a ∈ l, (∃ b, f a = .ok b) ∨ f a = .error err) (hex : ∃ a ∈ l, f a = .error err) :
    l.mapM f = .error err := by
  induction l with
  | nil => simp at hex
  | cons a l ih =>
    rw [List.mapM_cons]
    rcases h a (by simp) with ⟨b, hb⟩ | he
    · have : l.mapM f = .error err := by
        apply ih (fun b hb => h b (by simp [hb]))
        obtain ⟨c, hc, hce⟩ := hex
        rcases List.mem_cons.1 hc with rfl | hc
        · rw [hb] at hce; cases hce
        · exact ⟨c, hc, hce⟩
      rw [hb, this]; rfl
    · rw [he]; rfl

/-! ## FK on names -/

/-- world transform of position `j` -/
noncomputable def poseAt (root : Frame) {B : ℕ} (cols : List (Fin B → ℝ)) (j : ℕ) : Fin B → M4 :=
  worldOf root ((visit root).map fun e b => localT e.1 (colVal root cols b e.1.joint)) j

theorem fkTensor_ok {root : Frame} (hn : ((movingJoints root).map Joint.name).Nodup) {B : ℕ}
    (th cols : List (Fin B → ℝ)) (hth : movingJoints root ≠ [] → 0 < th.length)
    (hcols : broadcastCols (movingJoints root).length th = .ok cols) :
    (Chain.init root).fkTensor th = .ok ((List.range (visit root).length).map (poseAt root cols)) := by
  unfold Chain.fkTensor
  rw [localTransforms_ok hn th cols hth hcols, init_numFrames, init_directParents, init_bfsLevels]
  show fkAccum _ _ _ _ = _
  rw [fkAccum_visit _ _ (by simp)]
  rfl

theorem map_some_inj {α : Type} {a b : List α} (h : a.map some = b.map some) : a = b :=
  List.map_injective_iff.2 (Option.some_injective _) h

/-- the world transform at a position is the product along the tree path -/
theorem poseAt_path (root : Frame) {B : ℕ} (cols : List (Fin B → ℝ)) {j : ℕ} {pi : List ℕ}
    {path : List Frame} (hpi : (ancestors root)[j]? = some pi)
    (hmap : pi.map (frameAt root) = path.map some) (b : Fin B) :
    poseAt root cols j b = pathT (colVal root cols b) path := by
  simp only [poseAt, worldOf, hpi, Option.getD_some, pathT]
  rw [Pi.list_prod_apply]
  congr 1
  rw [List.map_map]
  have : ∀ (pi : List ℕ) (path : List Frame), pi.map (frameAt root) = path.map some →
      pi.map ((fun f : Fin B → M4 => f b) ∘ fun i =>
        ((visit root).map fun e b => localT e.1 (colVal root cols b e.1.joint)).getD i 1) =
      path.map fun f => localT f (colVal root cols b f.joint) := by
    intro pi
    induction pi with
    | nil => intro path h; cases path <;> simp_all
    | cons i pi ih =>
      intro path h
      cases path with
      | nil => simp at h
      | cons f path =>
        simp only [List.map_cons, List.cons.injEq] at h ⊢
        refine ⟨?_, ih path h.2⟩
        have hf := h.1
        simp only [frameAt, Option.map_eq_some_iff] at hf
        obtain ⟨e, he, rfl⟩ := hf
        simp [List.getD, he]
  exact this pi path hmap

/-- the result of `forward_kinematics` for given indices -/
theorem forwardKinematics_some {root : Frame} (h : WF root) {B : ℕ}
    (th cols : List (Fin B → ℝ)) (hth : movingJoints root ≠ [] → 0 < th.length)
    (hcols : broadcastCols (movingJoints root).length th = .ok cols) (names : List Name)
    (hnames : ∀ k ∈ names, ∃ f ∈ preorder root, f.name = k) :
    (Chain.init root).forwardKinematics th (some (names.map (posOf root))) =
      .ok (names.foldl (fun d k => Dict.set d k (poseAt root cols (posOf root k))) []) := by
  unfold Chain.forwardKinematics
  rw [fkTensor_ok h.joints_nodup th cols hth hcols]
  show List.foldlM _ _ _ = _
  generalize ([] : Dict Name (Fin B → M4)) = d
  induction names generalizing d with
  | nil => rfl
  | cons k names ih =>
    obtain ⟨f, hf, rfl⟩ := hnames k (by simp)
    obtain ⟨j, e, he, rfl⟩ := exists_pos hf
    have hj : j < (visit root).length := (List.getElem?_eq_some_iff.1 he).1
    rw [List.map_cons, List.foldlM_cons, List.foldl_cons, ← ih fun k hk => hnames k (by simp [hk])]
    simp [h.posOf_eq he, Dict.item, h.idxToFrame he, List.getElem?_range hj]
    rfl

theorem getAllFrameIndices_ok {root : Frame} (h : WF root) :
    (Chain.init root).getAllFrameIndices = .ok (((preorder root).map Frame.name).map (posOf root)) := by
  unfold Chain.getAllFrameIndices Chain.getFrameNames
  show (Chain.init root).getFrameIndices (pyUnique (root.getFrameNames false)) = _
  rw [getFrameNames_eq, pyUnique_of_nodup h.names_nodup, h.getFrameIndices]
  intro k hk
  obtain ⟨f, hf, rfl⟩ := List.mem_map.1 hk
  exact ⟨f, hf, rfl⟩

theorem forwardKinematics_none {root : Frame} (h : WF root) {B : ℕ} (th : List (Fin B → ℝ)) :
    (Chain.init root).forwardKinematics th none =
    (Chain.init root).forwardKinematics th (some (((preorder root).map Frame.name).map (posOf root))) := by
  unfold Chain.forwardKinematics
  simp only [getAllFrameIndices_ok h]

/-- paths reach exactly the frames of the tree -/
theorem path_last_mem {root f : Frame} {p : List Frame} (hp : IsPath root p) (hl : p.getLast? = some f) :
    f ∈ preorder root := by
  obtain ⟨j, e, pi, h1, -, -, h4⟩ := isPath_ancestors root hp
  rw [h4] at hl
  simp only [Option.some.injEq] at hl
  exact hl ▸ visit_mem_preorder h1

theorem exists_path {root f : Frame} (hf : f ∈ preorder root) : ∃ p, IsPath root p ∧ p.getLast? = some f := by
  obtain ⟨j, e, he, rfl⟩ := exists_pos hf
  obtain ⟨pi, path, -, h2, -, h4, -⟩ := ancestors_isPath root j e he
  exact ⟨path, h2, h4⟩

/-- pose of the frame a path leads to -/
theorem Spec.WF.pose_path {root f : Frame} (h : WF root) {B : ℕ} (cols : List (Fin B → ℝ)) {p : List Frame}
    (hp : IsPath root p) (hl : p.getLast? = some f) (b : Fin B) :
    poseAt root cols (posOf root f.name) b = pathT (colVal root cols b) p := by
  obtain ⟨j, e, pi, h1, h2, h3, h4⟩ := isPath_ancestors root hp
  rw [h4] at hl
  simp only [Option.some.injEq] at hl
  subst hl
  rw [h.posOf_eq h1]
  exact poseAt_path root cols h2 h3 b

end PK
