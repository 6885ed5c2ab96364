import Verif.Lemmas.TensorJac
import Verif.Props.Batch
import Verif.Props.Serial

/-!
# C122: forward kinematics, its gradient and the Jacobian act on every row of a batch

The theorems are about whole tensors, as the code handles them.  `junk` is the content of the memory that `torch.empty`
returns.
-/

namespace PK
open Tn Matrix Spec

/-- Value of joint `j` in row `b` of a `(B, n)` joint tensor: the documented column order. -/
noncomputable def rowVal (root : Frame) (th : Tn ℝ) (b : ℕ) (j : Joint) : ℝ := th.get [b, column root j]

/-- The tensor with entry `i` replaced by `x` -/
noncomputable def setAt (a : Tn ℝ) (i : List ℕ) (x : ℝ) : Tn ℝ := ofFn a.tag a.shape (Function.update a.get i x)

/-- `(G * T).sum()` for tensors of `F` times `B` poses -/
noncomputable def lossT (F B : ℕ) (G T : Tn ℝ) : ℝ :=
  ∑ f ∈ Finset.range F, ∑ b ∈ Finset.range B, ∑ r : Fin 4, ∑ c : Fin 4, G.get [f, b, r, c] * T.get [f, b, r, c]

/-! ## Tensors and lists of columns -/

/-- the columns of a tensor -/
noncomputable def colsOf (B J : ℕ) (th : Tn ℝ) : List (Fin B → ℝ) := (List.range J).map fun k b => th.get [b, k]

theorem colsOf_length (B J : ℕ) (th : Tn ℝ) : (colsOf B J th).length = J := by simp [colsOf]

theorem colsN_colsOf (B J : ℕ) (th : Tn ℝ) : colsN B J J th.get = colsOf B J th := by
  refine List.map_congr_left fun k hk => ?_
  have : k < J := List.mem_range.1 hk
  funext b
  rw [colIx]
  split
  · rw [show k = 0 by omega]
  · rfl

theorem colsOf_getD {B J : ℕ} (th : Tn ℝ) {k : ℕ} (hk : k < J) (b : Fin B) : ((colsOf B J th).getD k fun _ => 0) b = th.get [b, k] := by
  simp [colsOf, List.getD_eq_getElem?_getD, hk]

theorem setAt_hasVec {th : Tn ℝ} {s : Shape} {n : ℕ} {t : Tag} (h : HasVec th s n t) (i : List ℕ) (x : ℝ) :
    HasVec (setAt th i x) s n t := h

theorem setAt_get {th : Tn ℝ} {i j : List ℕ} (hj : ValidIx j th.shape) (x : ℝ) :
    (setAt th i x).get j = if j = i then x else th.get j := by
  rw [setAt, ofFn_get hj, Function.update_apply]

theorem colsOf_setAt {B J : ℕ} {th : Tn ℝ} {t : Tag} (h : HasVec th [B] J t) {k : ℕ} (b : Fin B) (x : ℝ) :
    colsOf B J (setAt th [b, k] x) = setEntry (colsOf B J th) k b x := by
  apply List.ext_getElem?
  intro j
  rw [Spec.setEntry, List.getElem?_modify, colsOf, colsOf, List.getElem?_map, List.getElem?_map]
  by_cases hj : j < J
  · rw [List.getElem?_range hj]
    simp only [Option.map_some, Option.map_map]
    have hget : ∀ c : Fin B, (setAt th [b, k] x).get [c, j] = if k = j ∧ c = b then x else th.get [c, j] := by
      intro c
      rw [setAt_get (by rw [h.1]; exact validIx_pair_iff.2 ⟨c.2, hj⟩)]
      refine if_congr ?_ rfl rfl
      simp only [List.cons.injEq, and_true, Fin.ext_iff]
      tauto
    refine congrArg some ?_
    funext c
    rw [hget]
    by_cases hk : k = j
    · subst hk
      by_cases hc : c = b
      · simp [hc]
      · simp [hc]
    · simp [hk]
  · rw [List.getElem?_eq_none (by simpa using hj)]; simp

theorem fk_of_tensor {root : Frame} (hn : ((movingJoints root).map Joint.name).Nodup) {d : DType} {v : Device} {B : ℕ} {th : Tn ℝ}
    (hth : HasVec th [B] (movingJoints root).length (flTag d v)) (junk : List ℕ → ℝ) :
    ((Chain.init root).tensors d v).fkImpl junk th =
      .ok (posesF (flTag d v) (visit root).length B (poseAt root (colsOf B (movingJoints root).length th))) := by
  have e : th = ofFn (flTag d v) [B, (movingJoints root).length] th.get := by
    conv_lhs => rw [← ofFn_eta th]
    rw [hth.1, hth.2]
    rfl
  conv_lhs => rw [e]
  rw [fkImpl_root hn d v (.inl rfl), colsN_colsOf]

theorem visit_preorder (root : Frame) : (visit root).length = (preorder root).length := by
  simpa using (visit_perm root).length_eq

theorem posesF_hasMat (t : Tag) (F B : ℕ) (m : ℕ → Fin B → M4) : HasMat (posesF t F B m) [F, B] 4 4 t := ⟨rfl, rfl⟩

theorem posesF_at (t : Tag) {F B : ℕ} (m : ℕ → Fin B → M4) {f b : ℕ} (hf : f < F) (hb : b < B) :
    matAt 4 4 (posesF t F B m) [f, b] = m f ⟨b, hb⟩ := by
  rw [posesF, poses, matAt_ofM (validIx_pair_iff.2 ⟨hf, hb⟩)]
  simp only [List.headD_cons, List.getD_cons_succ, List.getD_cons_zero, dif_pos hb]
  rfl

theorem rowPose {root f : Frame} (h : WF root) {B : ℕ} (th : Tn ℝ) {p : List Frame} (hp : IsPath root p)
    (hl : p.getLast? = some f) (b : Fin B) :
    poseAt root (colsOf B (movingJoints root).length th) (posOf root f.name) b = pathT (rowVal root th b) p := by
  rw [h.pose_path _ hp hl b]
  refine pathT_congr fun g hg => ?_
  by_cases mg : Moving g.joint
  · obtain ⟨j, e, he, rfl⟩ := exists_pos (isPath_mem hp g hg)
    rw [colVal, colsOf_getD th (column_lt (List.mem_of_getElem? he) mg), rowVal]
  · exact motion_fixed mg _ _

theorem posOf_lt_visit {root f : Frame} (h : WF root) (hf : f ∈ preorder root) : posOf root f.name < (visit root).length := by
  obtain ⟨j, e, he, rfl⟩ := exists_pos hf
  rw [h.posOf_eq he]
  exact (List.getElem?_eq_some_iff.1 he).1

/-! ## Forward kinematics -/

section
variable {d : DType} {v : Device}

/-- C122: forward kinematics of every `(B, n)` tensor, `B` possibly 0, is a `(frames, B, 4, 4)` tensor of the same dtype and
device, whose entry for a frame and a row is the pose of the frame at the joint values in that row. -/
theorem C122_forward (root : Frame) (h : WF root) {B : ℕ} {th : Tn ℝ}
    (hth : HasVec th [B] (movingJoints root).length (flTag d v)) (junk : List ℕ → ℝ) :
    ∃ T, ((Chain.init root).tensors d v).fkImpl junk th = .ok T ∧ HasMat T [(preorder root).length, B] 4 4 (flTag d v) ∧
      ∀ p f, IsPath root p → p.getLast? = some f → ∃ i < (preorder root).length,
        (Chain.init root).frameToIdx.item f.name = .ok i ∧ ∀ b < B, matAt 4 4 T [i, b] = pathT (rowVal root th b) p := by
  refine ⟨_, fk_of_tensor h.joints_nodup hth junk, by rw [← visit_preorder]; exact posesF_hasMat _ _ _ _, fun p f hp hl => ?_⟩
  have hf := path_last_mem hp hl
  have hlt := posOf_lt_visit h hf
  refine ⟨_, by rw [← visit_preorder]; exact hlt, item_posOf h hf, fun b hb => ?_⟩
  rw [posesF_at _ _ hlt hb]
  exact rowPose h th hp hl ⟨b, hb⟩

/-- the entries of the dictionary -/
noncomputable def framePose (root : Frame) (t : Tag) (B : ℕ) (th : Tn ℝ) (k : Name) : Tn ℝ :=
  ofM t [B] 4 4 fun i r c => if h : i.headD 0 < B then
    poseAt root (colsOf B (movingJoints root).length th) (posOf root k) ⟨i.headD 0, h⟩ r c else 0

theorem select0_posesF (t : Tag) {F B e : ℕ} (m : ℕ → Fin B → M4) (he : e < F) :
    select0 (posesF t F B m) e = .ok (ofM t [B] 4 4 fun i r c => if h : i.headD 0 < B then m e ⟨i.headD 0, h⟩ r c else 0) := by
  rw [posesF, select0_poses _ _ _ _ he]
  refine congrArg Except.ok (ofM_congr fun i hi => ?_)
  obtain ⟨b, rfl, hb⟩ := validIx_one hi
  funext r c
  simp [hb]

theorem dict_fold {root : Frame} (h : WF root) (t : Tag) (B : ℕ) (th : Tn ℝ) : ∀ (names : List Name) (D : Dict Name (Tn ℝ)),
    (∀ k ∈ names, ∃ f ∈ preorder root, f.name = k) →
    (names.map (posOf root)).foldlM (fun D fi => do
      let name ← (Chain.init root).idxToFrame.item fi
      let m ← select0 (posesF t (visit root).length B (poseAt root (colsOf B (movingJoints root).length th))) fi
      match m.shape with
      | [_, 4, 4] => Except.ok (Dict.set D name m)
      | _ => .error .valueError) D = .ok (names.foldl (fun D k => Dict.set D k (framePose root t B th k)) D)
  | [], D, _ => rfl
  | k :: names, D, hk => by
    obtain ⟨f, hf, rfl⟩ := hk k (List.mem_cons_self ..)
    rw [List.map_cons, List.foldlM_cons]
    obtain ⟨j, e, he, rfl⟩ := exists_pos hf
    have hit : (Chain.init root).idxToFrame.item (posOf root e.1.name) = .ok e.1.name := by
      rw [h.posOf_eq he, Dict.item, h.idxToFrame he]
    rw [hit, ok_bind, select0_posesF _ _ (posOf_lt_visit h hf), ok_bind]
    exact dict_fold h t B th names _ fun k hk' => hk k (List.mem_cons_of_mem _ hk')

/-- C122: `forward_kinematics` of such a tensor has one `(B, 4, 4)` tensor per frame. -/
theorem C122_poses_by_name (root : Frame) (h : WF root) {B : ℕ} {th : Tn ℝ}
    (hth : HasVec th [B] (movingJoints root).length (flTag d v)) (junk : List ℕ → ℝ) :
    ∃ D, (Chain.init root).forwardKinematicsT ((Chain.init root).tensors d v) junk th = .ok D ∧
      D.keys = (preorder root).map Frame.name ∧
      ∀ p f, IsPath root p → p.getLast? = some f → ∃ T, D.get? f.name = some T ∧ HasMat T [B] 4 4 (flTag d v) ∧
        ∀ b < B, matAt 4 4 T [b] = pathT (rowVal root th b) p := by
  have hat : atleast2d th = th := by rw [atleast2d, hth.1]; rfl
  refine ⟨((preorder root).map Frame.name).foldl (fun D k => Dict.set D k (framePose root (flTag d v) B th k)) [], ?_, ?_, ?_⟩
  · rw [Chain.forwardKinematicsT, getAllFrameIndices_ok h, ok_bind, hat, fk_of_tensor h.joints_nodup hth junk]
    exact dict_fold h _ B th _ _ (by simp)
  · rw [keys_foldl_set ((preorder root).map Frame.name) (fun k => k)]
    simp only [List.map_id_fun', id_eq]
    exact pyUnique_of_nodup h.names_nodup
  · intro p f hp hl
    refine ⟨_, get?_foldl_set _ (fun k => k) _ (fun i _ j _ hij => by rw [hij])
      (List.mem_map.2 ⟨f, path_last_mem hp hl, rfl⟩), ⟨rfl, rfl⟩, fun b hb => ?_⟩
    rw [framePose, matAt_ofM (validIx_one_iff.2 hb)]
    refine Eq.trans ?_ (rowPose h th hp hl ⟨b, hb⟩)
    ext r c
    simp [hb]

/-- C122: a tensor with one dimension is one row; so is a number for a robot with one joint. -/
theorem C122_one_row (c : Chain) (ct : ChainT) (junk : List ℕ → ℝ) (th row : Tn ℝ) (hs : th.shape.length ≤ 1)
    (hr : row.shape = [1, th.shape.prod]) (ht : row.tag = th.tag) (hg : ∀ i, ValidIx i th.shape → row.get [0, i.headD 0] = th.get i) :
    c.forwardKinematicsT ct junk th = c.forwardKinematicsT ct junk row := by
  have e : atleast2d th = atleast2d row := by
    have e2 : atleast2d row = row := by rw [atleast2d, hr]
    rw [e2, atleast2d]
    match hsh : th.shape, hs with
    | [], _ =>
      rw [hsh] at hr hg
      refine ext' (a := ofFn th.tag [1, 1] fun _ => th.get []) (by simp [hr]) (by simp [ht]) fun i hi => ?_
      rw [ofFn_shape] at hi
      rw [ofFn_get hi]
      obtain ⟨a, b, rfl, ha, hb⟩ := validIx_pair hi
      obtain rfl : a = 0 := by omega
      obtain rfl : b = 0 := by omega
      exact (hg [] (by simp [ValidIx])).symm
    | [n], _ =>
      rw [hsh] at hr hg
      refine ext' (a := ofFn th.tag [1, n] fun i => th.get i.tail) (by simp [hr]) (by simp [ht]) fun i hi => ?_
      rw [ofFn_shape] at hi
      rw [ofFn_get hi]
      obtain ⟨a, b, rfl, ha, hb⟩ := validIx_pair hi
      obtain rfl : a = 0 := by omega
      exact (hg [b] (validIx_one_iff.2 hb)).symm
  rw [Chain.forwardKinematicsT, Chain.forwardKinematicsT, e]

/-! ## The gradient -/

theorem backTables_init {root : Frame} (h : WF root) : BackTables (Chain.init root) (visit root).length (movingJoints root).length := by
  have hdlen : (Chain.init root).dofFrameIndices.length = (movingJoints root).length := by
    rw [← init_nJoints root]; exact dofFrameIndicesOf_length _ _ _
  refine ⟨init_nJoints root, init_numFrames root, hdlen, ?_, init_axes_length root, ?_, ?_, ?_⟩
  · intro i hi
    obtain ⟨k, hk, hki⟩ := List.mem_iff_getElem.1 hi
    obtain ⟨f, hf, mf, hc, -⟩ := column_frame h (hdlen ▸ hk)
    obtain ⟨jk, e, he, hef⟩ := exists_pos hf
    have := init_dofFrameIndices h mf he hef
    rw [hc, List.getElem?_eq_getElem hk, hki, Option.some.injEq] at this
    subst this
    exact (List.getElem?_eq_some_iff.1 he).1
  · rw [← hdlen]; exact List.length_map _
  · intro r hr
    obtain ⟨fj, -, rfl⟩ := List.mem_map.1 (show r ∈ (Chain.init root).dofFrameIndices.map fun fj =>
      (ancestors root).map fun anc => if fj ∈ anc then (1 : ℝ) else 0 from hr)
    rw [List.length_map, ancestors_length]
  · rw [← hdlen]; exact List.length_map _

/-- the poses of a tensor as a list -/
noncomputable def posesOf (F B : ℕ) (G : Tn ℝ) : List (Fin B → M4) := (List.range F).map fun f b => matAt 4 4 G [f, b]

theorem posesL_map (t : Tag) (F B : ℕ) (m : ℕ → Fin B → M4) : posesL t ((List.range F).map m) = posesF t F B m := by
  rw [posesL, List.length_map, List.length_range]
  refine posesF_congr fun f hf => ?_
  simp [List.getD_eq_getElem?_getD, hf]

theorem posesL_of {t : Tag} {F B : ℕ} {G : Tn ℝ} (h : HasMat G [F, B] 4 4 t) : posesL t (posesOf F B G) = G := by
  rw [posesOf, posesL_map, posesF, poses]
  conv_rhs => rw [h.eq]
  refine ofM_congr fun i hi => ?_
  obtain ⟨f, b, rfl, hf, hb⟩ := validIx_pair hi
  funext r c
  simp [hb]

theorem weighted_loss {t : Tag} (F B : ℕ) (G : Tn ℝ) (m : ℕ → Fin B → M4) :
    weighted (posesOf F B G) ((List.range F).map m) = lossT F B G (posesF t F B m) := by
  rw [weighted, posesOf, zipWith_maps2, sum_range_map, lossT]
  refine Finset.sum_congr rfl fun f hf => ?_
  rw [← Fin.sum_univ_eq_sum_range (fun b => ∑ r : Fin 4, ∑ c : Fin 4, G.get [f, b, r, c] * (posesF t F B m).get [f, b, r, c])]
  refine Finset.sum_congr rfl fun b _ => Finset.sum_congr rfl fun r _ => Finset.sum_congr rfl fun c _ => ?_
  have e := congrFun (congrFun (posesF_at t m (Finset.mem_range.1 hf) b.2) r) c
  have e' : (posesF t F B m).get [f, b, r, c] = m f b r c := e
  rw [e']
  rfl

theorem colsT_hasVec (t : Tag) {B n : ℕ} (l : List (Fin B → ℝ)) (h : l.length = n) : HasVec (colsT t l) [B] n t := by
  subst h; exact ⟨rfl, rfl⟩

theorem colsT_get (t : Tag) {B : ℕ} (l : List (Fin B → ℝ)) {b k : ℕ} (hb : b < B) (hk : k < l.length) :
    (colsT t l).get [b, k] = (l.getD k fun _ => 0) ⟨b, hb⟩ := by
  rw [colsT, ofFn_get (validIx_pair_iff.2 ⟨hb, hk⟩)]
  simp [hb]

/-- C122, what holds of the gradient: for a batch that is not empty the analytical backward pass returns a tensor of the
shape, dtype and device of the input, and entry `[b, k]` is the derivative of `(G * T).sum()` by entry `[b, k]`.  Missing:
the empty batch, for which the backward pass raises (`C122_fails_empty_batch`). -/
theorem C122_gradient_partial (root : Frame) (h : WF root) (hr : RigidTree root) {B : ℕ} (hB : 0 < B) {th : Tn ℝ}
    (hth : HasVec th [B] (movingJoints root).length (flTag d v)) {G : Tn ℝ}
    (hG : HasMat G [(preorder root).length, B] 4 4 (flTag d v)) (junk : List ℕ → ℝ) :
    ∃ T g, ((Chain.init root).tensors d v).fkImpl junk th = .ok T ∧ ((Chain.init root).tensors d v).backward T G = .ok g ∧
      HasVec g [B] (movingJoints root).length (flTag d v) ∧
      ∀ b < B, ∀ k < (movingJoints root).length, ∃ loss : ℝ → ℝ,
        (∀ x, ∃ T', ((Chain.init root).tensors d v).fkImpl junk (setAt th [b, k] x) = .ok T' ∧
          loss x = lossT (preorder root).length B G T') ∧
        HasDerivAt loss (g.get [b, k]) (th.get [b, k]) := by
  have hN := visit_preorder root
  rw [← hN] at hG
  have hfk : ∀ cols : List (Fin B → ℝ), cols.length = (movingJoints root).length →
      (Chain.init root).fkTensor cols = .ok ((List.range (visit root).length).map (poseAt root cols)) := by
    intro th' hth'
    apply fkTensor_ok h.joints_nodup
    · intro hne; rw [hth']; exact List.length_pos_iff.2 hne
    · simp [broadcastCols, hth']
  obtain ⟨T, grad, h1, h2, h3, h4⟩ := C16_backward_is_gradient root h hr (colsOf B (movingJoints root).length th)
    (colsOf_length _ _ _) (posesOf (visit root).length B G) (by simp [posesOf, hN])
  rw [hfk _ (colsOf_length _ _ _), Except.ok.injEq] at h1
  subst h1
  obtain ⟨grad', g1, g2, g3⟩ := backwardT (backTables_init h) d v hB _ (posesOf (visit root).length B G)
    (show ((List.range (visit root).length).map (poseAt root (colsOf B (movingJoints root).length th))).length = _ by simp)
    (by simp [posesOf])
  rw [h2, Except.ok.injEq] at g1
  subst g1
  rw [posesL_map, posesL_of hG] at g3
  refine ⟨_, _, fk_of_tensor h.joints_nodup hth junk, g3, colsT_hasVec _ _ h3, fun b hb k hk => ?_⟩
  obtain ⟨loss, hl1, hl2⟩ := h4 k ⟨b, hb⟩ hk
  refine ⟨loss, fun x => ⟨_, fk_of_tensor h.joints_nodup (setAt_hasVec hth _ x) junk, ?_⟩, ?_⟩
  · obtain ⟨T', t1, t2⟩ := hl1 x
    rw [hfk _ (by rw [setEntry_length, colsOf_length]), Except.ok.injEq] at t1
    subst t1
    rw [t2, ← hN, ← weighted_loss (t := flTag d v), colsOf_setAt hth ⟨b, hb⟩ x]
  · rw [colsT_get _ _ hb (by rw [h3]; exact hk)]
    rwa [colsOf_getD th hk] at hl2

/-- C122 fails: for an empty batch the backward pass of every robot raises RuntimeError. -/
theorem C122_fails_empty_batch (root : Frame) (h : WF root) {th : Tn ℝ}
    (hth : HasVec th [0] (movingJoints root).length (flTag d v)) {G : Tn ℝ}
    (hG : HasMat G [(preorder root).length, 0] 4 4 (flTag d v)) (junk : List ℕ → ℝ) :
    ∃ T, ((Chain.init root).tensors d v).fkImpl junk th = .ok T ∧
      ((Chain.init root).tensors d v).backward T G = .error .runtimeError := by
  refine ⟨_, fk_of_tensor h.joints_nodup hth junk, ?_⟩
  rw [← visit_preorder] at hG
  rw [← posesL_of hG, posesL, posesF, posesF, show (posesOf (visit root).length 0 G).length = (visit root).length by simp [posesOf]]
  exact backward_empty (backTables_init h) d v _ _

theorem poseAt_row (root : Frame) {B B' : ℕ} {th th' : Tn ℝ} {b : Fin B} {b' : Fin B'}
    (hrow : ∀ k < (movingJoints root).length, th.get [b, k] = th'.get [b', k]) {f : ℕ} (hf : f < (visit root).length) :
    poseAt root (colsOf B (movingJoints root).length th) f b = poseAt root (colsOf B' (movingJoints root).length th') f b' := by
  obtain ⟨pi, p, g1, g2, g3, -⟩ := ancestors_isPath root f _ (List.getElem?_eq_getElem hf)
  rw [poseAt_path root _ g1 g3, poseAt_path root _ g1 g3]
  refine pathT_congr fun g hg => ?_
  by_cases mg : Moving g.joint
  · obtain ⟨j, e, he, rfl⟩ := exists_pos (isPath_mem g2 g hg)
    have hc := column_lt (List.mem_of_getElem? he) mg
    rw [colVal, colVal, colsOf_getD th hc, colsOf_getD th' hc, hrow _ hc]
  · exact motion_fixed mg _ _

theorem gradN_congr {c : Chain} {N : ℕ} {m m' g g' : ℕ → ℕ → M4} {j b b' : ℕ} (hj : c.dofFrameIndices.getD j 0 < N)
    (hm : ∀ l < N, m l b = m' l b') (hg : ∀ l < N, g l b = g' l b') : gradN c N m g j b = gradN c N m' g' j b' := by
  have h1 : ∀ l ∈ Finset.range N, maskN c j l • tauLink (m l b) (g l b) = maskN c j l • tauLink (m' l b') (g' l b') :=
    fun l hl => by rw [hm l (Finset.mem_range.1 hl), hg l (Finset.mem_range.1 hl)]
  have h2 : ∀ l ∈ Finset.range N, maskN c j l • posPart (g l b) = maskN c j l • posPart (g' l b') :=
    fun l hl => by rw [hg l (Finset.mem_range.1 hl)]
  have h3 : ∀ l ∈ Finset.range N, maskN c j l • cross (posPart (m l b)) (posPart (g l b)) =
      maskN c j l • cross (posPart (m' l b')) (posPart (g' l b')) :=
    fun l hl => by rw [hm l (Finset.mem_range.1 hl), hg l (Finset.mem_range.1 hl)]
  rw [gradN, gradN, Finset.sum_congr rfl h1, Finset.sum_congr rfl h2, Finset.sum_congr rfl h3, hm _ hj]

/-- C122: row `b` of the gradient depends on row `b` of the joint values and of the upstream gradient alone: not on the
other rows, and not on how many there are. -/
theorem C122_gradient_row_alone (root : Frame) (h : WF root) {B B' : ℕ} {th th' : Tn ℝ}
    (hth : HasVec th [B] (movingJoints root).length (flTag d v)) (hth' : HasVec th' [B'] (movingJoints root).length (flTag d v))
    {G G' : Tn ℝ} (hG : HasMat G [(preorder root).length, B] 4 4 (flTag d v))
    (hG' : HasMat G' [(preorder root).length, B'] 4 4 (flTag d v)) {b b' : ℕ} (hb : b < B) (hb' : b' < B')
    (hrow : ∀ k < (movingJoints root).length, th.get [b, k] = th'.get [b', k])
    (hgrow : ∀ f < (preorder root).length, matAt 4 4 G [f, b] = matAt 4 4 G' [f, b']) (junk junk' : List ℕ → ℝ) :
    ∃ T T' g g', ((Chain.init root).tensors d v).fkImpl junk th = .ok T ∧
      ((Chain.init root).tensors d v).fkImpl junk' th' = .ok T' ∧
      ((Chain.init root).tensors d v).backward T G = .ok g ∧ ((Chain.init root).tensors d v).backward T' G' = .ok g' ∧
      ∀ k < (movingJoints root).length, g.get [b, k] = g'.get [b', k] := by
  rw [← visit_preorder] at hG hG' hgrow
  have hbt := backTables_init h
  have key : ∀ {B : ℕ} (hB : 0 < B) (th G : Tn ℝ) (hG : HasMat G [(visit root).length, B] 4 4 (flTag d v)),
      ((Chain.init root).tensors d v).backward (posesF (flTag d v) (visit root).length B
        (poseAt root (colsOf B (movingJoints root).length th))) G = _ := fun hB th G hG =>
    (congrArg _ (show G = _ from (posesL_of hG).symm.trans (posesL_map _ _ _ _))).trans (backward_poses hbt d v hB _ _)
  refine ⟨_, _, _, _, fk_of_tensor h.joints_nodup hth junk, fk_of_tensor h.joints_nodup hth' junk', key (by omega) th G hG,
    key (by omega) th' G' hG', fun k hk => ?_⟩
  rw [ofFn_get (validIx_pair_iff.2 ⟨hb, hk⟩), ofFn_get (validIx_pair_iff.2 ⟨hb', hk⟩)]
  have hk' : (Chain.init root).dofFrameIndices.getD k 0 < (visit root).length := by
    have : k < (Chain.init root).dofFrameIndices.length := by rw [hbt.dof]; exact hk
    rw [getD_of_lt _ _ this]
    exact hbt.dof_lt _ (List.getElem_mem this)
  have hp := fun l (hl : l < (visit root).length) =>
    poseAt_row root (B := B) (B' := B') (th := th) (th' := th') (b := ⟨b, hb⟩) (b' := ⟨b', hb'⟩) hrow hl
  refine gradN_congr (b := b) (b' := b') hk' (fun l hl => ?_) fun l hl => ?_
  · rw [dif_pos hb, dif_pos hb', hp l hl]
  · rw [dif_pos hb, dif_pos hb']; exact hgrow l hl

/-! ## The Jacobian -/

theorem jacTables_serial {rf : Frame} {rest : List Frame} (h : WF (serialRoot rf rest)) :
    JacTables (serialOf rf rest) (visit (serialRoot rf rest)).length (pathJoints (rf :: rest)).length := by
  obtain ⟨fl, -, hfn, hfm⟩ := exists_last rf rest
  have hd := dofFrames_length rf rest
  refine ⟨?_, ?_, ?_, ?_, ?_⟩
  · rw [← hd]; exact List.length_map _
  · intro k hk
    obtain ⟨f, hf, rfl⟩ := List.mem_map.1 (show k ∈ (dofFrames rf rest).map fun f => posOf (serialRoot rf rest) f.name from hk)
    exact posOf_lt_visit h (dofFrames_mem hf).1
  · rw [← hd]; exact List.length_map _
  · rw [← hd]; exact List.length_map _
  · show posOf (serialRoot rf rest) (lastName rf rest) < _
    rw [← hfn]
    exact posOf_lt_visit h hfm

theorem oneRowT_two {th : Tn ℝ} {B n : ℕ} {t : Tag} (h : HasVec th [B] n t) : oneRowT th = .ok th := by
  rw [oneRowT, if_neg (by rw [h.1]; simp)]

theorem zN_serial {rf : Frame} {rest : List Frame} {k : ℕ} {f : Frame} (hk : (dofFrames rf rest)[k]? = some f) {B : ℕ}
    (m : ℕ → Fin B → M4) (b : Fin B) :
    zN (serialOf rf rest) (fun f b => if h : b < B then m f ⟨b, h⟩ else 0) k b =
      rotPart (m (posOf (serialRoot rf rest) f.name) b) *ᵥ f.joint.axis := by
  have h1 : (serialOf rf rest).dofFrameIndices.getD k 0 = posOf (serialRoot rf rest) f.name := by
    show ((dofFrames rf rest).map fun f => posOf (serialRoot rf rest) f.name).getD k 0 = _
    simp [List.getD_eq_getElem?_getD, hk]
  have h2 : (serialOf rf rest).dofAxes.getD k 0 = f.joint.axis := by
    show ((dofFrames rf rest).map fun f => f.joint.axis).getD k 0 = _
    simp [List.getD_eq_getElem?_getD, hk]
  rw [zN, h1, h2, dif_pos b.2]

theorem types_serial {rf : Frame} {rest : List Frame} {k : ℕ} {f : Frame} (hk : (dofFrames rf rest)[k]? = some f) :
    decide ((serialOf rf rest).dofTypes.getD k 0 = 1) = decide (f.joint.jtype = .revolute) := by
  have : (serialOf rf rest).dofTypes.getD k 0 = if f.joint.jtype = .revolute then 1 else 2 := by
    show ((dofFrames rf rest).map fun f => if f.joint.jtype = .revolute then 1 else 2).getD k 0 = _
    simp [List.getD_eq_getElem?_getD, hk]
  rw [this]
  by_cases h : f.joint.jtype = .revolute <;> simp [h]

theorem jcolN_serial {rf : Frame} {rest : List Frame} {k : ℕ} {f : Frame} (hk : (dofFrames rf rest)[k]? = some f) {B : ℕ}
    (m : ℕ → Fin B → M4) (b : Fin B) :
    jcolN (serialOf rf rest) (fun f b => if h : b < B then m f ⟨b, h⟩ else 0) k b =
      jcol (rotPart (m (posOf (serialRoot rf rest) f.name) b) *ᵥ f.joint.axis)
        (posPart (m (posOf (serialRoot rf rest) (lastName rf rest)) b) -
          posPart (m (posOf (serialRoot rf rest) f.name) b)) (f.joint.jtype = .revolute) := by
  have h1 : (serialOf rf rest).dofFrameIndices.getD k 0 = posOf (serialRoot rf rest) f.name := by
    show ((dofFrames rf rest).map fun f => posOf (serialRoot rf rest) f.name).getD k 0 = _
    simp [List.getD_eq_getElem?_getD, hk]
  have h2 : (serialOf rf rest).eefIdx = posOf (serialRoot rf rest) (lastName rf rest) := rfl
  rw [jcolN, zN_serial hk, h1, h2, types_serial hk]
  simp only [dif_pos b.2, jcol]
  by_cases h : f.joint.jtype = .revolute <;> simp [h]

/-- poses of the serial chain, row by row -/
noncomputable def pN (root : Frame) (B : ℕ) (th : Tn ℝ) (f b : ℕ) : M4 :=
  if h : b < B then poseAt root (colsOf B (movingJoints root).length th) f ⟨b, h⟩ else 0

theorem pN_setAt {root : Frame} {B : ℕ} {th : Tn ℝ} {t : Tag} (h : HasVec th [B] (movingJoints root).length t) {k b : ℕ}
    (hb : b < B) (x : ℝ) (f : ℕ) : pN root B (setAt th [b, k] x) f b =
      poseAt root (Spec.setEntry (colsOf B (movingJoints root).length th) k ⟨b, hb⟩ x) f ⟨b, hb⟩ := by
  rw [pN, dif_pos hb, ← colsOf_setAt h ⟨b, hb⟩ x]

theorem fk_serial {rf : Frame} {rest : List Frame} (h : WF (serialRoot rf rest)) {B : ℕ} {th : Tn ℝ}
    (hth : HasVec th [B] (pathJoints (rf :: rest)).length (flTag d v)) (junk : List ℕ → ℝ) :
    ((serialOf rf rest).tensors d v).chain.fkImpl junk th =
      .ok (poses (flTag d v) (visit (serialRoot rf rest)).length B (pN (serialRoot rf rest) B th)) := by
  rw [pathJoints_length] at hth
  exact fk_of_tensor h.joints_nodup hth junk

/-- column `k` for row `b` as a twist -/
theorem tool_twist {rf : Frame} {rest : List Frame} (h : WF (serialRoot rf rest)) (hr : RigidTree (serialRoot rf rest)) {B : ℕ}
    {th : Tn ℝ} {t : Tag} (hth : HasVec th [B] (pathJoints (rf :: rest)).length t) {k : ℕ} (hk : k < (pathJoints (rf :: rest)).length)
    {b : ℕ} (hb : b < B) (w : ℕ → M4) (n : ℕ) (hw : IsAffine (w (toolIx n b))) :
    HasTwistAt (fun x => pN (serialRoot rf rest) B (setAt th [b, k] x) (serialOf rf rest).eefIdx b * w (toolIx n b))
      (fun r => toolColN (serialOf rf rest) (pN (serialRoot rf rest) B th) w n k b (r.castLE (by omega)))
      (fun r => toolColN (serialOf rf rest) (pN (serialRoot rf rest) B th) w n k b (r.natAdd 3)) (th.get [b, k]) := by
  have hkd : k < (dofFrames rf rest).length := by rw [dofFrames_length]; exact hk
  have hkf := List.getElem?_eq_getElem hkd
  have := serial_twist h hr (colsOf B (movingJoints (serialRoot rf rest)).length th)
    (by rw [colsOf_length, pathJoints_length]) hkf ⟨b, hb⟩ _ hw
  simp only at this
  rw [colsOf_getD th (by rw [← pathJoints_length]; exact hk)] at this
  have hth' := hth
  rw [pathJoints_length] at hth'
  have e1 : zN (serialOf rf rest) (pN (serialRoot rf rest) B th) k b = _ :=
    zN_serial hkf (poseAt (serialRoot rf rest) (colsOf B (movingJoints (serialRoot rf rest)).length th)) ⟨b, hb⟩
  have e2 : jcolN (serialOf rf rest) (pN (serialRoot rf rest) B th) k b = _ :=
    jcolN_serial hkf (poseAt (serialRoot rf rest) (colsOf B (movingJoints (serialRoot rf rest)).length th)) ⟨b, hb⟩
  have e3 : pN (serialRoot rf rest) B th (serialOf rf rest).eefIdx b = poseAt (serialRoot rf rest)
      (colsOf B (movingJoints (serialRoot rf rest)).length th) (posOf (serialRoot rf rest) (lastName rf rest)) ⟨b, hb⟩ := by
    rw [pN, dif_pos hb]; rfl
  simp only [toolColN, e1, e2, e3, types_serial hkf]
  convert this using 1
  · funext x
    rw [pN_setAt hth' hb]
    rfl
  · by_cases ht : (dofFrames rf rest)[k].joint.jtype = .revolute
    · funext i; fin_cases i <;> simp [jcol, cross, ht] <;> ring
    · funext i; fin_cases i <;> simp [jcol, ht]
  · funext i; fin_cases i <;> simp [jcol]

theorem toolColN_one (s : SerialChain) (m : ℕ → ℕ → M4) (n j b : ℕ) : toolColN s m (fun _ => 1) n j b = jcolN s m j b := by
  funext i
  rw [toolColN]
  have hc : cross (zN s m j b) 0 = 0 := by funext i; fin_cases i <;> simp [cross]
  fin_cases i <;> simp [hc]

/-- C122: the Jacobian of every `(B, n)` tensor, `B` possibly 0, is a `(B, 6, n)` tensor of the same dtype and device, the
returned pose a `(B, 4, 4)` tensor with the poses of the end.  Column `k` of matrix `b` is the velocity, first linear, then
angular, with which the returned pose `b` moves when entry `[b, k]` changes. -/
theorem C122_jacobian (root rf fe : Frame) (rootName : Name) (p : List Frame) (h : WF root)
    (hr : RigidTree root) (hs : StartsAt root rf rootName) (hp : IsPath rf p) (hl : p.getLast? = some fe)
    {B : ℕ} {th : Tn ℝ} (hth : HasVec th [B] (pathJoints p).length (flTag d v)) (junk : List ℕ → ℝ) :
    ∃ s J T, SerialChain.init root fe.name rootName = .ok s ∧ (s.tensors d v).jacobian junk th = .ok (J, T) ∧
      HasMat J [B] 6 (pathJoints p).length (flTag d v) ∧ HasMat T [B] 4 4 (flTag d v) ∧
      (∃ all, (s.tensors d v).chain.fkImpl junk th = .ok all ∧ ∀ b < B, matAt 4 4 T [b] = matAt 4 4 all [s.eefIdx, b]) ∧
      ∀ b < B, ∀ k < (pathJoints p).length, ∃ P : ℝ → M4,
        (∀ x, ∃ J' T', (s.tensors d v).jacobian junk (setAt th [b, k] x) = .ok (J', T') ∧ matAt 4 4 T' [b] = P x) ∧
        HasTwistAt P (fun r => J.get [b, r, k]) (fun r => J.get [b, 3 + r, k]) (th.get [b, k]) := by
  obtain ⟨rest, rfl⟩ := isPath_head hp
  have hws := serialRoot_wf (h.sub hs.1) hp
  have hrs := serialRoot_rigid (hr.sub hs.1) hp
  have hjt := jacTables_serial hws
  have key : ∀ th : Tn ℝ, HasVec th [B] (pathJoints (rf :: rest)).length (flTag d v) →
      ((serialOf rf rest).tensors d v).jacobian junk th = .ok
        (ofM (flTag d v) [B] 6 (pathJoints (rf :: rest)).length fun i r c =>
          jcolN (serialOf rf rest) (pN (serialRoot rf rest) B th) c (i.headD 0) r,
        ofM (flTag d v) [B] 4 4 fun i r c => pN (serialRoot rf rest) B th (serialOf rf rest).eefIdx (i.headD 0) r c) := by
    intro th hth
    rw [SerialT.jacobian, oneRowT_two hth, ok_bind, fk_serial hws hth, ok_bind, jacobianOf_poses hjt, ok_bind, eefPose hjt,
      ok_bind, pure_ok]
  refine ⟨serialOf rf rest, _, _, serialInit_ok h hs hp hl rfl, key th hth, ⟨rfl, rfl⟩, ⟨rfl, rfl⟩, ?_, fun b hb k hk => ?_⟩
  · refine ⟨_, fk_serial hws hth junk, fun b hb => ?_⟩
    rw [matAt_ofM (validIx_one_iff.2 hb), poses, matAt_ofM (validIx_pair_iff.2 ⟨hjt.eef, hb⟩)]
    rfl
  · refine ⟨fun x => _, fun x => ⟨_, _, key _ (setAt_hasVec hth [b, k] x), matAt_ofM (validIx_one_iff.2 hb)⟩, ?_⟩
    have := tool_twist hws hrs hth hk hb (fun _ => 1) 1 isRigid_one.2
    simp only [Matrix.mul_one, toolColN_one] at this
    convert this using 1
    · rfl
    · funext r
      exact ofM_get (i := [b]) (validIx_one_iff.2 hb) (show r.val < 6 by omega) hk
    · funext r
      exact ofM_get (i := [b]) (validIx_one_iff.2 hb) (show 3 + r.val < 6 by omega) hk

/-- C122: the tool Jacobian of every `(B, n)` tensor and of tools `(B, 4, 4)` or `(1, 4, 4)`, one for all rows.  The pose
returned for row `b` is the pose of the end times the tool of row `b`, and column `k` is the velocity of that pose. -/
theorem C122_jacobian_tool (root rf fe : Frame) (rootName : Name) (p : List Frame) (h : WF root)
    (hr : RigidTree root) (hs : StartsAt root rf rootName) (hp : IsPath rf p) (hl : p.getLast? = some fe)
    {B : ℕ} {th : Tn ℝ} (hth : HasVec th [B] (pathJoints p).length (flTag d v)) {n : ℕ} (hn : n = B ∨ n = 1) {tool : Tn ℝ}
    (htool : HasMat tool [n] 4 4 (flTag d v)) (haff : ∀ i < n, IsAffine (matAt 4 4 tool [i])) (junk : List ℕ → ℝ) :
    ∃ s J T, SerialChain.init root fe.name rootName = .ok s ∧ (s.tensors d v).jacobianTool junk th tool = .ok (J, T) ∧
      HasMat J [B] 6 (pathJoints p).length (flTag d v) ∧ HasMat T [B] 4 4 (flTag d v) ∧
      (∃ all, (s.tensors d v).chain.fkImpl junk th = .ok all ∧ ∀ b < B, matAt 4 4 T [b] =
        matAt 4 4 all [s.eefIdx, b] * matAt 4 4 tool [if n = 1 then 0 else b]) ∧
      ∀ b < B, ∀ k < (pathJoints p).length, ∃ P : ℝ → M4,
        (∀ x, ∃ J' T', (s.tensors d v).jacobianTool junk (setAt th [b, k] x) tool = .ok (J', T') ∧ matAt 4 4 T' [b] = P x) ∧
        HasTwistAt P (fun r => J.get [b, r, k]) (fun r => J.get [b, 3 + r, k]) (th.get [b, k]) := by
  obtain ⟨rest, rfl⟩ := isPath_head hp
  have hws := serialRoot_wf (h.sub hs.1) hp
  have hrs := serialRoot_rigid (hr.sub hs.1) hp
  have hjt := jacTables_serial hws
  have et : tool = ofM (flTag d v) [n] 4 4 fun i r c => (fun j => matAt 4 4 tool [j]) (i.headD 0) r c := by
    refine htool.eq.trans (ofM_congr fun i hi => ?_)
    obtain ⟨k, rfl, hk⟩ := validIx_one hi
    rfl
  have key : ∀ th : Tn ℝ, HasVec th [B] (pathJoints (rf :: rest)).length (flTag d v) →
      ((serialOf rf rest).tensors d v).jacobianTool junk th tool = .ok
        (ofM (flTag d v) [B] 6 (pathJoints (rf :: rest)).length fun i r c =>
          toolColN (serialOf rf rest) (pN (serialRoot rf rest) B th) (fun j => matAt 4 4 tool [j]) n c (i.headD 0) r,
        ofM (flTag d v) [B] 4 4 fun i r c => (pN (serialRoot rf rest) B th (serialOf rf rest).eefIdx (i.headD 0) *
          (fun j => matAt 4 4 tool [j]) (toolIx n (i.headD 0))) r c) := by
    intro th hth
    conv_lhs => rw [et]
    rw [jacobianTool_eq, oneRowT_two hth, ok_bind, fk_serial hws hth, ok_bind, toolJacT_poses hjt d v hn _ fun j => matAt 4 4 tool [j]]
  refine ⟨serialOf rf rest, _, _, serialInit_ok h hs hp hl rfl, key th hth, ⟨rfl, rfl⟩, ⟨rfl, rfl⟩, ?_, fun b hb k hk => ?_⟩
  · refine ⟨_, fk_serial hws hth junk, fun b hb => ?_⟩
    rw [matAt_ofM (validIx_one_iff.2 hb), poses, matAt_ofM (validIx_pair_iff.2 ⟨hjt.eef, hb⟩)]
    rfl
  · refine ⟨fun x => _, fun x => ⟨_, _, key _ (setAt_hasVec hth [b, k] x), matAt_ofM (validIx_one_iff.2 hb)⟩, ?_⟩
    have := tool_twist hws hrs hth hk hb (fun j => matAt 4 4 tool [j]) n (haff _ (by rw [toolIx]; split <;> omega))
    convert this using 1
    · rfl
    · funext r
      exact ofM_get (i := [b]) (validIx_one_iff.2 hb) (show r.val < 6 by omega) hk
    · funext r
      exact ofM_get (i := [b]) (validIx_one_iff.2 hb) (show 3 + r.val < 6 by omega) hk

/-- C122: a tensor with one dimension is one row for the Jacobian too, with or without a tool. -/
theorem C122_jacobian_one_row (s : SerialT) (junk : List ℕ → ℝ) (th row tool : Tn ℝ) (hs : th.shape.length ≤ 1)
    (hr : row.shape = [1, th.shape.prod]) (ht : row.tag = th.tag) (hg : ∀ i, ValidIx i th.shape → row.get [0, i.headD 0] = th.get i) :
    s.jacobian junk th = s.jacobian junk row ∧ s.jacobianTool junk th tool = s.jacobianTool junk row tool := by
  have e : oneRowT th = oneRowT row := by
    have e2 : oneRowT row = .ok row := by rw [oneRowT, if_neg (by rw [hr]; simp)]
    rw [e2, oneRowT, if_pos hs, reshape, if_pos (by simp)]
    refine congrArg Except.ok (ext' (by simp [hr]) (by simp [ht]) fun i hi => ?_)
    rw [ofFn_shape] at hi
    rw [ofFn_get hi]
    obtain ⟨a, b, rfl, ha, hb⟩ := validIx_pair hi
    obtain rfl : a = 0 := by omega
    match hsh : th.shape, hs with
    | [], _ =>
      rw [hsh] at hb
      obtain rfl : b = 0 := by simpa using hb
      rw [hsh] at hg
      exact (hg [] (by simp [ValidIx])).symm
    | [n], _ =>
      rw [hsh] at hb hg
      have := hg [b] (validIx_one_iff.2 (by simpa using hb))
      rw [List.headD_cons] at this
      rw [this]
      simp [ravel, unravel]
  rw [SerialT.jacobian, SerialT.jacobian, SerialT.jacobianTool, SerialT.jacobianTool, e]
  exact ⟨rfl, rfl⟩

/-- three configurations of the arm with three joints, an upstream gradient, one tool for all of them, and the empty batch -/
example : WF exTree ∧ RigidTree exTree ∧ HasVec (ofFn (flTag .f32 0) [3, 3] fun i => (i.headD 0 : ℝ) + i.getD 1 0) [3]
      (movingJoints exTree).length (flTag .f32 0) ∧
    HasMat (full (flTag .f32 0) [(preorder exTree).length, 3, 4, 4] 1) [(preorder exTree).length, 3] 4 4 (flTag .f32 0) ∧
    HasMat (ofM (flTag .f32 0) [1] 4 4 fun _ r c => mkHom 1 ![1, 2, 3] r c) [1] 4 4 (flTag .f32 0) ∧
    IsAffine (matAt 4 4 (ofM (flTag .f32 0) [1] 4 4 fun _ r c => mkHom 1 ![1, 2, 3] r c) [0]) ∧
    HasVec (full (flTag .f32 0) [0, 3] 0) [0] (movingJoints exTree).length (flTag .f32 0) := by
  have h2 : (movingJoints exTree).length = 3 := by
    simp [movingJoints, exTree, preorder, preorderL, Frame.joint, Moving]
  refine ⟨exTree_wf, exTree_rigid, ⟨by rw [h2]; rfl, rfl⟩, ⟨rfl, rfl⟩, ⟨rfl, rfl⟩, ?_, ⟨by rw [h2]; rfl, rfl⟩⟩
  rw [matAt_ofM (validIx_one_iff.2 (by omega))]
  exact mkHom_affine _ _

end
end PK