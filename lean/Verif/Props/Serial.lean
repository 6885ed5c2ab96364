import Verif.Lemmas.Serial

/-!
# C17–C21, C66: serial chains and their Jacobian
-/

namespace PK
open Spec Matrix

/-! ## FK of the serial tree -/

theorem tensorAt_pose {sr f : Frame} (h : WF sr) {B : ℕ} (th : List (Fin B → ℝ)) (hf : f ∈ preorder sr) :
    tensorAt ((List.range (visit sr).length).map (poseAt sr th)) (posOf sr f.name) =
      .ok (poseAt sr th (posOf sr f.name)) := by
  obtain ⟨j, e, he, rfl⟩ := exists_pos hf
  have hj : j < (visit sr).length := (List.getElem?_eq_some_iff.1 he).1
  rw [h.posOf_eq he, tensorAt, List.getElem?_map, List.getElem?_range hj]
  rfl

theorem zipWith_maps {α β γ δ ε : Type} (F : β × γ → δ → ε) (p : α → β) (q : α → γ) (r : α → δ) : ∀ l : List α,
    List.zipWith F (List.zip (l.map p) (l.map q)) (l.map r) = l.map fun a => F (p a, q a) (r a)
  | [] => rfl
  | a :: l => by simpa using zipWith_maps F p q r l

theorem zipWith_maps2 {α β γ δ : Type} (F : β → γ → δ) (p : α → β) (q : α → γ) : ∀ l : List α,
    List.zipWith F (l.map p) (l.map q) = l.map fun a => F (p a) (q a)
  | [] => rfl
  | a :: l => by simpa using zipWith_maps2 F p q l

/-- the moving frames of a serial tree -/
noncomputable def dofFrames (rf : Frame) (rest : List Frame) : List Frame :=
  (serialRoot rf rest :: serialNest rest).filter fun f => f.joint.jtype ≠ .fixed

theorem dofFrames_joints (rf : Frame) (rest : List Frame) :
    (dofFrames rf rest).map Frame.joint = movingJoints (serialRoot rf rest) := by
  rw [movingJoints, serialRoot_preorder, List.filter_map]
  rfl

theorem dofFrames_mem {rf f : Frame} {rest : List Frame} (hf : f ∈ dofFrames rf rest) :
    f ∈ preorder (serialRoot rf rest) ∧ Moving f.joint := by
  obtain ⟨h1, h2⟩ := List.mem_filter.1 hf
  exact ⟨serialRoot_preorder rf rest ▸ h1, by simpa [Moving] using h2⟩

theorem pathJoints_length (rf : Frame) (rest : List Frame) :
    (pathJoints (rf :: rest)).length = (movingJoints (serialRoot rf rest)).length := by
  rw [serialRoot_moving]; rfl

/-- name of the last serial frame -/
noncomputable def lastName (rf : Frame) (rest : List Frame) : Name := ((rf :: rest).getLast (by simp)).name

theorem exists_last (rf : Frame) (rest : List Frame) :
    ∃ fl, (serialRoot rf rest :: serialNest rest).getLast? = some fl ∧ fl.name = lastName rf rest ∧
      fl ∈ preorder (serialRoot rf rest) := by
  refine ⟨(serialRoot rf rest :: serialNest rest).getLast (by simp), List.getLast?_eq_some_getLast _, ?_, ?_⟩
  · have hn : (serialRoot rf rest :: serialNest rest).map Frame.name = (rf :: rest).map Frame.name := by
      rw [List.map_cons, serialNest_names]; rfl
    rw [lastName, ← List.getLast_map (f := Frame.name) (by simp), ← List.getLast_map (f := Frame.name) (by simp)]
    simp only [hn]
  · rw [serialRoot_preorder]; exact List.getLast_mem _

theorem serial_fkTensor {rf : Frame} {rest : List Frame} (h : WF (serialRoot rf rest)) {B : ℕ}
    (th : List (Fin B → ℝ)) (hth : th.length = (pathJoints (rf :: rest)).length) :
    (serialOf rf rest).chain.fkTensor th =
      .ok ((List.range (visit (serialRoot rf rest)).length).map (poseAt (serialRoot rf rest) th)) := by
  rw [pathJoints_length] at hth
  apply fkTensor_ok h.joints_nodup
  · intro hne; rw [hth]; exact List.length_pos_iff.2 hne
  · simp [broadcastCols, hth]

/-- one column of the Jacobian -/
noncomputable def jcol (z dp : V3) (rev : Prop) [Decidable rev] : Fin 6 → ℝ :=
  let v := if rev then cross z dp else z
  let w := if rev then z else 0
  ![v 0, v 1, v 2, w 0, w 1, w 2]

/-- all columns -/
noncomputable def jacCols (rf : Frame) (rest : List Frame) {B : ℕ} (th : List (Fin B → ℝ)) :
    List (Fin B → Fin 6 → ℝ) :=
  (dofFrames rf rest).map (fun f b =>
      jcol (rotPart (poseAt (serialRoot rf rest) th (posOf (serialRoot rf rest) f.name) b) *ᵥ f.joint.axis)
        (posPart (poseAt (serialRoot rf rest) th (posOf (serialRoot rf rest) (lastName rf rest)) b) -
         posPart (poseAt (serialRoot rf rest) th (posOf (serialRoot rf rest) f.name) b)) (f.joint.jtype = .revolute))

theorem jacobianTensor_ok {rf : Frame} {rest : List Frame} (h : WF (serialRoot rf rest)) {B : ℕ}
    (th : List (Fin B → ℝ)) (hth : th.length = (pathJoints (rf :: rest)).length) :
    (serialOf rf rest).jacobianTensor th = .ok (jacCols rf rest th,
      poseAt (serialRoot rf rest) th (posOf (serialRoot rf rest) (lastName rf rest))) := by
  obtain ⟨fl, -, hfn, hfm⟩ := exists_last rf rest
  have hee := tensorAt_pose h th hfm
  rw [hfn] at hee
  have hdof : ((dofFrames rf rest).map fun f => posOf (serialRoot rf rest) f.name).mapM
      (fun i => tensorAt ((List.range (visit (serialRoot rf rest)).length).map (poseAt (serialRoot rf rest) th)) i) =
      .ok ((dofFrames rf rest).map fun f => poseAt (serialRoot rf rest) th (posOf (serialRoot rf rest) f.name)) := by
    apply mapM_congr_ok
    rw [List.forall₂_map_left_iff, List.forall₂_map_right_iff, List.forall₂_same]
    intro f hf
    exact tensorAt_pose h th (dofFrames_mem hf).1
  unfold SerialChain.jacobianTensor jacobianCols
  rw [serial_fkTensor h th hth]
  show (do
    let J ← _
    let tee ← _
    pure (J, tee) : Except Err _) = _
  show (do
    let J ← (do
      let tee ← tensorAt _ (posOf (serialRoot rf rest) (lastName rf rest))
      let tdof ← ((dofFrames rf rest).map fun f => posOf (serialRoot rf rest) f.name).mapM
        (fun i => tensorAt ((List.range (visit (serialRoot rf rest)).length).map (poseAt (serialRoot rf rest) th)) i)
      pure (List.zipWith _ (List.zip tdof ((dofFrames rf rest).map fun f => f.joint.axis))
        ((dofFrames rf rest).map fun f => if f.joint.jtype = .revolute then 1 else 2)))
    let tee ← tensorAt _ (posOf (serialRoot rf rest) (lastName rf rest))
    pure (J, tee) : Except Err _) = _
  rw [hdof, hee]
  simp only [ok_bind, pure_ok]
  rw [zipWith_maps]
  congr 3
  funext f b
  by_cases ht : f.joint.jtype = .revolute <;> simp [jcol, ht]

theorem serial_path (rf : Frame) (rest : List Frame) :
    IsPath (serialRoot rf rest) (serialRoot rf rest :: serialNest rest) := by
  have := serial_isPath rf rest rest.length le_rfl
  rwa [← serialNest_length rest, List.take_length] at this

/-- a chain has as many joints as its serial frames have moving joints -/
theorem serial_nJoints (rf : Frame) (rest : List Frame) : (serialOf rf rest).chain.nJoints =
    ((serialOf rf rest).serialFrames.filter fun f => f.joint.jtype ≠ .fixed).length := by
  have hn : (serialOf rf rest).chain.nJoints = (movingJoints (serialRoot rf rest)).length := init_nJoints _
  rw [hn, ← dofFrames_joints, List.length_map]
  rfl

theorem fkWith_few {rf : Frame} {rest : List Frame} {th : JIn} (fis : Option (List ℕ)) (hb : th.batchSizeOk = .ok ())
    (hn : th.nJoints < (pathJoints (rf :: rest)).length) : (serialOf rf rest).fkWith th fis = .error .valueError := by
  have h1 : (serialOf rf rest).chain.nJoints = (pathJoints (rf :: rest)).length := by
    rw [pathJoints_length]; exact init_nJoints _
  unfold SerialChain.fkWith
  rw [hb, ok_bind, if_pos]
  rw [← serial_nJoints, h1]
  omega

theorem serial_fkWith {rf : Frame} {rest : List Frame} (h : WF (serialRoot rf rest)) {B : ℕ}
    (th : List (Fin B → ℝ)) (hth : th.length = (pathJoints (rf :: rest)).length) (fis : Option (List ℕ)) :
    (serialOf rf rest).fkWith (.tensor B th) fis = (do
      return ⟨B, ← (Chain.init (serialRoot rf rest)).forwardKinematics th fis⟩) := by
  unfold SerialChain.fkWith
  have hn : (serialOf rf rest).chain.nJoints = (movingJoints (serialRoot rf rest)).length := init_nJoints _
  rw [pathJoints_length] at hth
  have hb : (JIn.tensor B th).batchSizeOk = .ok () := rfl
  have hnj : (JIn.tensor B th).nJoints = th.length := rfl
  rw [hb, ok_bind, if_neg (by rw [hn, hnj, hth]; simp)]
  rfl

theorem serial_fkEnd {rf : Frame} {rest : List Frame} (h : WF (serialRoot rf rest)) {B : ℕ}
    (th : List (Fin B → ℝ)) (hth : th.length = (pathJoints (rf :: rest)).length) :
    (serialOf rf rest).fkEnd (.tensor B th) =
      .ok ⟨B, poseAt (serialRoot rf rest) th (posOf (serialRoot rf rest) (lastName rf rest))⟩ := by
  obtain ⟨fl, hfl, hfn, hfm⟩ := exists_last rf rest
  have hth' := hth
  rw [pathJoints_length] at hth'
  have h1 : (serialOf rf rest).serialFrames.getLast? = some fl := hfl
  have h2 : (serialOf rf rest).chain.frameToIdx.item fl.name = .ok (posOf (serialRoot rf rest) fl.name) := item_posOf h hfm
  have h3 := forwardKinematics_some h th th (fun hne => by rw [hth']; exact List.length_pos_iff.2 hne)
    (by simp [broadcastCols, hth']) [fl.name] (by simp; exact ⟨fl, hfm, rfl⟩)
  unfold SerialChain.fkEnd
  simp only [List.map_cons, List.map_nil, List.foldl_cons, List.foldl_nil] at h3
  simp only [h1, h2, ok_bind, serial_fkWith h th hth, h3, pure_ok]
  rw [← hfn]
  simp [Dict.item, Dict.set, Dict.get?, ok_bind]

/-- velocity of `T_ee * tool` when joint `k` of a serial chain moves -/
theorem serial_twist {rf : Frame} {rest : List Frame} (h : WF (serialRoot rf rest))
    (hr : RigidTree (serialRoot rf rest)) {B : ℕ} (th : List (Fin B → ℝ))
    (hth : th.length = (pathJoints (rf :: rest)).length) {k : ℕ} {f : Frame} (hk : (dofFrames rf rest)[k]? = some f)
    (b : Fin B) (tool : M4) (htool : IsAffine tool) :
    let z := rotPart (poseAt (serialRoot rf rest) th (posOf (serialRoot rf rest) f.name) b) *ᵥ f.joint.axis
    let dp := posPart (poseAt (serialRoot rf rest) th (posOf (serialRoot rf rest) (lastName rf rest)) b * tool) -
      posPart (poseAt (serialRoot rf rest) th (posOf (serialRoot rf rest) f.name) b)
    HasTwistAt (fun x => poseAt (serialRoot rf rest) (setEntry th k b x)
        (posOf (serialRoot rf rest) (lastName rf rest)) b * tool)
      (if f.joint.jtype = .revolute then cross z dp else z) (if f.joint.jtype = .revolute then z else 0)
      ((th.getD k fun _ => 0) b) := by
  intro z dp
  have hth' := hth
  rw [pathJoints_length] at hth'
  obtain ⟨fl, hfl, hfn, hfm⟩ := exists_last rf rest
  have hp := serial_path rf rest
  obtain ⟨hfm', mf⟩ := dofFrames_mem (List.mem_of_getElem? hk)
  have hfp : f ∈ serialRoot rf rest :: serialNest rest := serialRoot_preorder rf rest ▸ hfm'
  have hc : column (serialRoot rf rest) f.joint = k := by
    apply (C07_columns _ h).2.2
    rw [← dofFrames_joints, List.getElem?_map, hk]; rfl
  obtain ⟨C, pf, hC, hpf, hpl, hrig, hmul, hd⟩ := pose_deriv h hr th hth' mf b hp hfp
  rw [hc] at hrig hmul hd
  have hee : ∀ t : List (Fin B → ℝ), poseAt (serialRoot rf rest) t (posOf (serialRoot rf rest) (lastName rf rest)) b =
      pathT (colVal (serialRoot rf rest) t b) (serialRoot rf rest :: serialNest rest) := by
    intro t
    rw [← hfn]; exact h.pose_path t hp hfl b
  have hkk : poseAt (serialRoot rf rest) th (posOf (serialRoot rf rest) f.name) b =
      pathT (colVal (serialRoot rf rest) th b) pf := h.pose_path th hpf hpl b
  set x0 := (th.getD k fun _ => 0) b with hx0
  have hrig0 := hrig x0
  have hmul0 := hmul x0
  have hd0 := hasDerivAt_sandwich (hd x0) 1 tool
  have hCt : IsAffine (C * tool) := by
    have h1 := eq_mkHom_of_affine hC.2
    have h2 := eq_mkHom_of_affine htool
    rw [h1, h2, mkHom_mul]
    funext j; fin_cases j <;> simp [mkHom]
  have hg := twist_geometry (j := f.joint) hrig0 hCt
  simp only [Matrix.one_mul, Matrix.mul_assoc _ C tool] at hd0
  simp only at hg
  rw [hg] at hd0
  rw [setEntry_self] at hmul0
  rw [← Matrix.mul_assoc] at hd0
  rw [hx0, setEntry_self, ← hmul0, ← hx0, ← hkk, ← hee] at hd0
  have hzz : rotPart (poseAt (serialRoot rf rest) th (posOf (serialRoot rf rest) f.name) b) *ᵥ f.joint.axis = z := rfl
  have hdd : posPart (poseAt (serialRoot rf rest) th (posOf (serialRoot rf rest) (lastName rf rest)) b * tool) -
      posPart (poseAt (serialRoot rf rest) th (posOf (serialRoot rf rest) f.name) b) = dp := rfl
  rw [hzz, hdd] at hd0
  simp only [← hee] at hd0
  cases ht : f.joint.jtype
  · exact absurd ht mf
  · simp only [ht] at hd0
    refine ⟨fun i => ?_, fun i j => ?_⟩
    · have := hd0 i.castSucc 3
      fin_cases i <;> simpa [mkTwist] using this
    · have := hd0 i.castSucc j.castSucc
      have hself : poseAt (serialRoot rf rest) (setEntry th k b x0) (posOf (serialRoot rf rest) (lastName rf rest)) b =
          poseAt (serialRoot rf rest) th (posOf (serialRoot rf rest) (lastName rf rest)) b := by
        rw [hx0, setEntry_self]
      simp only [hself]
      convert this using 1
      fin_cases i <;> fin_cases j <;> rfl
  · simp only [ht] at hd0
    refine ⟨fun i => ?_, fun i j => ?_⟩
    · have := hd0 i.castSucc 3
      fin_cases i <;> simpa [mkTwist] using this
    · have := hd0 i.castSucc j.castSucc
      convert this using 1
      have h0 : hat 0 = 0 := by rw [hat_eq]; ext i j; fin_cases i <;> fin_cases j <;> simp
      simp only [reduceCtorEq, if_false, h0, Matrix.zero_mul]
      fin_cases i <;> fin_cases j <;> rfl

/-! ## C17, C18 -/

theorem dofFrames_length (rf : Frame) (rest : List Frame) :
    (dofFrames rf rest).length = (pathJoints (rf :: rest)).length := by
  rw [pathJoints_length, ← dofFrames_joints, List.length_map]

/-- C17: the Jacobian has one column per joint, its first three rows are the derivative of the end
position, its last three the angular velocity of the end rotation. The returned pose is the FK pose. -/
theorem C17_jacobian_is_derivative (root rf fe : Frame) (rootName : Name) (p : List Frame) (h : WF root)
    (hr : RigidTree root) (hs : StartsAt root rf rootName) (hp : IsPath rf p) (hl : p.getLast? = some fe)
    {B : ℕ} (th : List (Fin B → ℝ)) (hth : th.length = (pathJoints p).length) :
    ∃ s J T, SerialChain.init root fe.name rootName = .ok s ∧ s.jacobian (.tensor B th) = .ok ⟨B, J, T⟩ ∧
      J.length = th.length ∧ s.fkEnd (.tensor B th) = .ok ⟨B, T⟩ ∧
      ∀ k col, J[k]? = some col → ∀ b, ∃ P : ℝ → Fin B → M4,
        (∀ x, s.fkEnd (.tensor B (setEntry th k b x)) = .ok ⟨B, P x⟩) ∧
        HasTwistAt (fun x => P x b) ![col b 0, col b 1, col b 2] ![col b 3, col b 4, col b 5]
          ((th.getD k fun _ => 0) b) := by
  obtain ⟨rest, rfl⟩ := isPath_head hp
  have hws := serialRoot_wf (h.sub hs.1) hp
  have hrs := serialRoot_rigid (hr.sub hs.1) hp
  refine ⟨serialOf rf rest, jacCols rf rest th, _, serialInit_ok h hs hp hl rfl, ?_, ?_, serial_fkEnd hws th hth, ?_⟩
  · unfold SerialChain.jacobian
    simp only [jacobianTensor_ok hws th hth, ok_bind]
    rfl
  · rw [jacCols, List.length_map, dofFrames_length, hth]
  · intro k col hk b
    rw [jacCols, List.getElem?_map] at hk
    obtain ⟨f, hf, rfl⟩ := Option.map_eq_some_iff.1 hk
    refine ⟨fun x => _, fun x => serial_fkEnd hws _ (by rw [setEntry_length, hth]), ?_⟩
    have := serial_twist hws hrs th hth hf b 1 isRigid_one.2
    simp only [Matrix.mul_one] at this
    convert this using 1
    · ext i; fin_cases i <;> simp [jcol]
    · ext i; fin_cases i <;> simp [jcol]

/-- C18: with a tool (one affine matrix for the whole batch, or one per row) the Jacobian is that of the
frame `T_ee * tool`, and that is the returned pose. -/
theorem C18_tool_jacobian (root rf fe : Frame) (rootName : Name) (p : List Frame) (h : WF root)
    (hr : RigidTree root) (hs : StartsAt root rf rootName) (hp : IsPath rf p) (hl : p.getLast? = some fe)
    {B : ℕ} (th : List (Fin B → ℝ)) (hth : th.length = (pathJoints p).length) (tool : List M4) (tm : Fin B → M4)
    (htool : (∃ m, tool = [m] ∧ ∀ b, tm b = m) ∨ tool = List.ofFn tm) (haff : ∀ b, IsAffine (tm b)) :
    ∃ s J T, SerialChain.init root fe.name rootName = .ok s ∧ s.jacobianTool th tool = .ok (J, T) ∧
      J.length = th.length ∧ (∃ Te, s.fkEnd (.tensor B th) = .ok ⟨B, Te⟩ ∧ ∀ b, T b = Te b * tm b) ∧
      ∀ k col, J[k]? = some col → ∀ b, ∃ P : ℝ → Fin B → M4,
        (∀ x, s.fkEnd (.tensor B (setEntry th k b x)) = .ok ⟨B, P x⟩) ∧
        HasTwistAt (fun x => P x b * tm b) ![col b 0, col b 1, col b 2] ![col b 3, col b 4, col b 5]
          ((th.getD k fun _ => 0) b) := by
  obtain ⟨rest, rfl⟩ := isPath_head hp
  have hws := serialRoot_wf (h.sub hs.1) hp
  have hrs := serialRoot_rigid (hr.sub hs.1) hp
  have hbt : broadcastTool B tool = .ok tm := by
    rcases htool with ⟨m, rfl, hm⟩ | rfl
    · unfold broadcastTool
      split
      · congr 1; funext b
        have : b.val = 0 := by have := b.isLt; simp at *; omega
        simp [this, hm b]
      · simp only; congr 1; funext b; rw [hm b]
    · unfold broadcastTool
      rw [dif_pos (by simp)]
      congr 1; funext b; simp
  have hj := jacobianTensor_ok hws th hth
  unfold SerialChain.jacobianTensor at hj
  rw [serial_fkTensor hws th hth] at hj
  obtain ⟨fl, -, hfn, hfm⟩ := exists_last rf rest
  have hee := tensorAt_pose hws th hfm
  rw [hfn] at hee
  have hee' : tensorAt ((List.range (visit (serialRoot rf rest)).length).map (poseAt (serialRoot rf rest) th))
    (serialOf rf rest).eefIdx = .ok (poseAt (serialRoot rf rest) th (posOf (serialRoot rf rest) (lastName rf rest))) := hee
  have hdof : (serialOf rf rest).dofFrameIndices.mapM
      (fun i => tensorAt ((List.range (visit (serialRoot rf rest)).length).map (poseAt (serialRoot rf rest) th)) i) =
      .ok ((dofFrames rf rest).map fun f => poseAt (serialRoot rf rest) th (posOf (serialRoot rf rest) f.name)) := by
    apply mapM_congr_ok
    show List.Forall₂ _ ((dofFrames rf rest).map fun f => posOf (serialRoot rf rest) f.name) _
    rw [List.forall₂_map_left_iff, List.forall₂_map_right_iff, List.forall₂_same]
    intro f hf
    exact tensorAt_pose hws th (dofFrames_mem hf).1
  have hax : (serialOf rf rest).dofAxes = (dofFrames rf rest).map fun f => f.joint.axis := rfl
  have hty : (serialOf rf rest).dofTypes = (dofFrames rf rest).map fun f => if f.joint.jtype = .revolute then 1 else 2 := rfl
  simp only [ok_bind, hee', pure_ok] at hj
  have hjc : jacobianCols ((List.range (visit (serialRoot rf rest)).length).map (poseAt (serialRoot rf rest) th))
    (serialOf rf rest).eefIdx (serialOf rf rest).dofFrameIndices (serialOf rf rest).dofAxes (serialOf rf rest).dofTypes =
    .ok (jacCols rf rest th) := by
    cases hc : jacobianCols ((List.range (visit (serialRoot rf rest)).length).map (poseAt (serialRoot rf rest) th))
      (serialOf rf rest).eefIdx (serialOf rf rest).dofFrameIndices (serialOf rf rest).dofAxes (serialOf rf rest).dofTypes with
    | error e => rw [hc] at hj; cases hj
    | ok J =>
      rw [hc] at hj
      simp only [ok_bind, Except.ok.injEq, Prod.mk.injEq, and_true] at hj
      rw [hj]
  have hjt : (serialOf rf rest).jacobianTool th tool = .ok ((dofFrames rf rest).map (fun f b =>
      let z := rotPart (poseAt (serialRoot rf rest) th (posOf (serialRoot rf rest) f.name) b) *ᵥ f.joint.axis
      let pe := poseAt (serialRoot rf rest) th (posOf (serialRoot rf rest) (lastName rf rest)) b
      let c := jcol z (posPart pe - posPart (poseAt (serialRoot rf rest) th (posOf (serialRoot rf rest) f.name) b))
        (f.joint.jtype = .revolute)
      let k := if f.joint.jtype = .revolute then cross z (posPart (pe * tm b) - posPart pe) else 0
      ![c 0 + k 0, c 1 + k 1, c 2 + k 2, c 3, c 4, c 5]),
      fun b => poseAt (serialRoot rf rest) th (posOf (serialRoot rf rest) (lastName rf rest)) b * tm b) := by
    unfold SerialChain.jacobianTool
    rw [serial_fkTensor hws th hth]
    simp only [ok_bind, hjc]
    simp only [ok_bind, hee', hbt, hdof, hax, hty, zipWith_maps, jacCols, zipWith_maps2, pure_ok]
    congr 3
    funext f b
    by_cases ht : f.joint.jtype = .revolute <;> simp [ht]
  refine ⟨serialOf rf rest, _, _, serialInit_ok h hs hp hl rfl, hjt, ?_, ⟨_, serial_fkEnd hws th hth, ?_⟩, ?_⟩
  · simp [dofFrames_length, hth]
  · intro b; rfl
  · intro k col hk b
    rw [List.getElem?_map] at hk
    obtain ⟨f, hf, rfl⟩ := Option.map_eq_some_iff.1 hk
    refine ⟨fun x => _, fun x => serial_fkEnd hws _ (by rw [setEntry_length, hth]), ?_⟩
    have := serial_twist hws hrs th hth hf b (tm b) (haff b)
    simp only at this
    convert this using 1
    · by_cases ht : f.joint.jtype = .revolute
      · ext i; fin_cases i <;> simp [jcol, cross, ht] <;> ring
      · ext i; fin_cases i <;> simp [jcol, ht]
    · ext i; fin_cases i <;> simp [jcol]

/-- the hypotheses of C17 and C18 hold for the two-joint arm of `exTree` -/
example : ∃ p, StartsAt exTree exTree [] ∧ IsPath exTree p ∧ WF exTree ∧ RigidTree exTree ∧
    (pathJoints p).length = 2 := by
  refine ⟨[exTree, exTree.children[0], exTree.children[0].children[0]], ⟨by rw [preorder_eq]; simp, .inl ⟨rfl, rfl⟩⟩, ?_,
    exTree_wf, exTree_rigid, by simp [pathJoints, exTree, Frame.children, Frame.joint, Moving]⟩
  exact IsPath.snoc [exTree] _ _ (IsPath.snoc [] _ _ IsPath.single (by simp)) (by simp)

/-! ## C19 -/

theorem isPath_trans {root rf : Frame} {a r : List Frame} (ha : IsPath root (a ++ [rf])) (hr : IsPath rf (rf :: r)) :
    IsPath root (a ++ [rf] ++ r) := by
  induction r using List.reverseRecOn with
  | nil => simpa using ha
  | append_singleton r c ih =>
    have h1 : rf :: (r ++ [c]) = (rf :: r) ++ [c] := rfl
    rw [h1] at hr
    rcases isPath_cases hr with hq | ⟨p, g, c', hq, hpg, hc⟩
    · have := congrArg List.length hq
      simp at this
    · obtain ⟨h2, h3⟩ := List.append_inj' hq rfl
      simp only [List.cons.injEq, and_true] at h3
      subst h3
      have h4 := ih (h2 ▸ hpg)
      have h5 : a ++ [rf] ++ r = (a ++ p) ++ [g] := by
        rw [List.append_assoc, List.singleton_append, h2, List.append_assoc]
      rw [h5] at h4
      have h6 := IsPath.snoc (a ++ p) g c h4 hc
      rw [← h5] at h6
      simpa using h6

theorem pathT_data (val : Joint → ℝ) {p q : List Frame}
    (h : p.map (fun f => (f.name, f.link, f.joint)) = q.map fun f => (f.name, f.link, f.joint)) :
    pathT val p = pathT val q := by
  have h1 : ∀ l : List Frame, l.map (fun f => localT f (val f.joint)) =
      (l.map fun f => (f.name, f.link, f.joint)).map fun x =>
        x.2.1.offset.getD 1 * x.2.2.offset.getD 1 * motion x.2.2 (val x.2.2) := by
    intro l; rw [List.map_map]; rfl
  rw [pathT, pathT, h1, h1, h]

/-- C19: poses in a serial chain are relative to its root frame: `pose_full(g) = pose_full(root) *
pose_serial(g)` for every frame of the path, when both get the same joint values. -/
theorem C19_relative_poses (root rf fe : Frame) (rootName : Name) (p : List Frame) (h : WF root)
    (hs : StartsAt root rf rootName) (hp : IsPath rf p) (hl : p.getLast? = some fe)
    {B : ℕ} (th ths : List (Fin B → ℝ)) (hth : th.length = (movingJoints root).length)
    (hths : ths.length = (pathJoints p).length)
    (hagree : ∀ (k : ℕ) (j : Joint), (pathJoints p)[k]? = some j → ths[k]? = th[column root j]?) :
    ∃ s d ds T0 Te, SerialChain.init root fe.name rootName = .ok s ∧
      (Chain.init root).forwardKinematics th = .ok d ∧ d.get? rf.name = some T0 ∧
      s.fkAll (.tensor B ths) = .ok ⟨B, ds⟩ ∧ ds.keys = p.map Frame.name ∧ ds.get? rf.name = some 1 ∧
      s.fkEnd (.tensor B ths) = .ok ⟨B, Te⟩ ∧ ds.get? fe.name = some Te ∧
      ∀ g ∈ p, ∃ T Ts, d.get? g.name = some T ∧ ds.get? g.name = some Ts ∧ ∀ b, T b = T0 b * Ts b := by
  obtain ⟨rest, rfl⟩ := isPath_head hp
  have hw := h.sub hs.1
  have hws := serialRoot_wf hw hp
  have hths' := hths
  rw [pathJoints_length] at hths'
  obtain ⟨d, hd, -, hdg⟩ := C01_fk_is_path_product root h th hth
  obtain ⟨ds, hds, hdk, hdsg⟩ := C01_fk_is_path_product (serialRoot rf rest) hws ths hths'
  obtain ⟨pr, hpr, hprl⟩ := exists_path hs.1
  obtain ⟨T0, hT0, hT0e⟩ := hdg pr rf hpr hprl
  obtain ⟨pr0, rfl⟩ := List.getLast?_eq_some_iff.1 hprl
  have hloc : ∀ val : Joint → ℝ, pathT val [serialRoot rf rest] = 1 := by
    intro val
    simp [pathT, localT, serialRoot, Frame.link, Frame.joint, Joint.init, motion]
  have hval : ∀ f ∈ rest, Moving f.joint → ∀ b, colVal (serialRoot rf rest) ths b f.joint = colVal root th b f.joint := by
    intro f hf mf b
    have hmem : f.joint ∈ pathJoints (rf :: rest) := List.mem_filter.2 ⟨List.mem_map.2 ⟨f, hf, rfl⟩, by simpa using mf⟩
    obtain ⟨k, hk⟩ := List.getElem?_of_mem hmem
    have hc : column (serialRoot rf rest) f.joint = k := by
      apply (C07_columns _ hws).2.2
      rw [serialRoot_moving]; exact hk
    simp only [colVal, List.getD, hc, hagree k _ hk]
  have hser : ∀ i, i ≤ rest.length → ∀ b, pathT (colVal (serialRoot rf rest) ths b)
      (serialRoot rf rest :: (serialNest rest).take i) = pathT (colVal root th b) (rest.take i) := by
    intro i _ b
    have h1 : serialRoot rf rest :: (serialNest rest).take i = [serialRoot rf rest] ++ (serialNest rest).take i := rfl
    rw [h1, pathT_append, hloc, one_mul]
    rw [pathT_data (q := rest.take i) _ (by rw [List.map_take, List.map_take, serialNest_data])]
    apply pathT_congr
    intro f hf
    by_cases mf : Moving f.joint
    · rw [hval f (List.mem_of_mem_take hf) mf b]
    · exact motion_fixed mf _ _
  have hnames : (serialRoot rf rest :: serialNest rest).map Frame.name = (rf :: rest).map Frame.name := by
    rw [List.map_cons, serialNest_names]; rfl
  have hfr : ∀ g ∈ rf :: rest, ∃ T Ts, d.get? g.name = some T ∧ ds.get? g.name = some Ts ∧ ∀ b, T b = T0 b * Ts b := by
    intro g hg
    obtain ⟨i, hi, rfl⟩ := List.mem_iff_getElem.1 hg
    have hi' : i ≤ rest.length := by simp at hi; omega
    -- the path to `g` in the full tree
    have hsub : IsPath rf (rf :: rest.take i) ∧ (rf :: rest.take i).getLast? = some (rf :: rest)[i] := by
      have e1 : rf :: rest.take i = (rf :: rest).take i ++ [(rf :: rest)[i]] := by
        rw [← List.take_succ_eq_append_getElem hi]; rfl
      have e2 : rf :: rest = (rf :: rest).take i ++ [(rf :: rest)[i]] ++ (rf :: rest).drop (i + 1) := by
        rw [← List.take_succ_eq_append_getElem hi, List.take_append_drop]
      rw [e1]
      refine ⟨isPath_prefix (p2 := (rf :: rest).drop (i + 1)) (by rw [← e2]; exact hp), List.getLast?_concat⟩
    have hfull := isPath_trans hpr hsub.1
    have hfl : (pr0 ++ [rf] ++ rest.take i).getLast? = some (rf :: rest)[i] := by
      rw [← hsub.2, List.append_assoc, List.getLast?_append_of_ne_nil _ (by simp)]; rfl
    obtain ⟨T, hT, hTe⟩ := hdg _ _ hfull hfl
    have hsl : i < (serialRoot rf rest :: serialNest rest).length := by simp [serialNest_length]; omega
    have hsp := serial_isPath rf rest i hi'
    have hsll : (serialRoot rf rest :: (serialNest rest).take i).getLast? = some (serialRoot rf rest :: serialNest rest)[i] := by
      have e1 : serialRoot rf rest :: (serialNest rest).take i =
          (serialRoot rf rest :: serialNest rest).take i ++ [(serialRoot rf rest :: serialNest rest)[i]] := by
        rw [← List.take_succ_eq_append_getElem hsl]; rfl
      rw [e1]; exact List.getLast?_concat
    have hnm : (serialRoot rf rest :: serialNest rest)[i].name = (rf :: rest)[i].name := by
      have := congrArg (fun l => l[i]?) hnames
      simp only [List.getElem?_map] at this
      rw [List.getElem?_eq_getElem hi, List.getElem?_eq_getElem hsl] at this
      exact Option.some.inj this
    obtain ⟨Ts, hTs, hTse⟩ := hdsg _ _ hsp hsll
    rw [hnm] at hTs
    refine ⟨T, Ts, hT, hTs, fun b => ?_⟩
    rw [hTe, hTse, hT0e, hser i hi', pathT_append]
  have hT1 : ds.get? rf.name = some 1 := by
    obtain ⟨Ts, hTs, hTse⟩ := hdsg [serialRoot rf rest] (serialRoot rf rest) IsPath.single rfl
    have : (serialRoot rf rest).name = rf.name := rfl
    rw [this] at hTs
    rw [hTs]; congr 1; funext b; rw [hTse, hloc]; rfl
  obtain ⟨fl, hfl, hfn, hfm⟩ := exists_last rf rest
  have hlast : lastName rf rest = fe.name := by
    rw [lastName]; rw [List.getLast?_eq_some_getLast (by simp)] at hl; rw [Option.some.inj hl]
  refine ⟨serialOf rf rest, d, ds, T0, _, serialInit_ok h hs hp hl rfl, hd, hT0, ?_, ?_, hT1, serial_fkEnd hws ths hths, ?_, hfr⟩
  · rw [SerialChain.fkAll, serial_fkWith hws ths hths, hds]; rfl
  · rw [hdk, serialRoot_preorder, hnames]
  · obtain ⟨Ts, hTs, hTse⟩ := hdsg _ _ (serial_path rf rest) hfl
    rw [← hlast, ← hfn, hTs]
    congr 1; funext b
    rw [hTse, hws.pose_path ths (serial_path rf rest) hfl b]

/-- the hypotheses of C19 hold for the arm of `exTree` below `s`, whose joint is column 1 of the full chain -/
example (x y z : Fin 3 → ℝ) : ∃ rf p, StartsAt exTree rf ['s'] ∧ IsPath rf p ∧ rf ≠ exTree ∧
    [x, y, z].length = (movingJoints exTree).length ∧ [y].length = (pathJoints p).length ∧
    ∀ (k : ℕ) (j : Joint), (pathJoints p)[k]? = some j → [y][k]? = [x, y, z][column exTree j]? := by
  refine ⟨exTree.children[0], [exTree.children[0], exTree.children[0].children[0]], ⟨?_, .inr ⟨by simp, rfl⟩⟩,
    IsPath.snoc [] _ _ IsPath.single (by simp), fun hc => ?_, ?_, ?_, ?_⟩
  · exact below_preorder (root := exTree) (f := exTree) (by rw [preorder_eq]; simp)
      (.child exTree _ .refl (List.getElem_mem _))
  · have := congrArg Frame.name hc
    simp [exTree, Frame.children, Frame.name] at this
  · simp [movingJoints, exTree, preorder, preorderL, Frame.joint, Moving]
  · simp [pathJoints, exTree, Frame.children, Frame.joint, Moving]
  · intro k j hk
    have hpj : pathJoints [exTree.children[0], exTree.children[0].children[0]] = [exTree.children[0].children[0].joint] := by
      simp [pathJoints, exTree, Frame.children, Frame.joint, Moving]
    rw [hpj] at hk
    cases k with
    | succ k => simp at hk
    | zero =>
      simp only [List.getElem?_cons_zero, Option.some.injEq] at hk
      subst hk
      simp [column, movingJoints, exTree, preorder, preorderL, Frame.joint, Frame.children, Moving, List.idxOf,
        List.findIdx_cons]

/-! ## C20 -/

theorem mem_preorder_iff_below {rf g : Frame} : g ∈ preorder rf ↔ Below rf g := by
  constructor
  · intro hg
    obtain ⟨p, hp, hl⟩ := exists_path hg
    obtain ⟨rest, rfl⟩ := isPath_head hp
    exact path_below hp rf (by simp) g hl
  · intro hb
    exact below_preorder (by rw [preorder_eq]; simp) hb

/-- C20: the frames of a serial chain are the path's frames in order, its joints the moving joints
strictly below its root on that path, in order. -/
theorem C20_frames_and_joints (root rf fe : Frame) (rootName : Name) (p : List Frame) (h : WF root)
    (hs : StartsAt root rf rootName) (hp : IsPath rf p) (hl : p.getLast? = some fe) :
    ∃ s, SerialChain.init root fe.name rootName = .ok s ∧
      s.serialFrames.map Frame.name = p.map Frame.name ∧
      s.chain.getFrameNames false = p.map Frame.name ∧
      s.chain.getJoints = pathJoints p ∧
      s.chain.getJointParameterNames = (pathJoints p).map Joint.name ∧
      s.chain.nJoints = (pathJoints p).length := by
  obtain ⟨rest, rfl⟩ := isPath_head hp
  have hws := serialRoot_wf (h.sub hs.1) hp
  have hnames : (serialRoot rf rest :: serialNest rest).map Frame.name = (rf :: rest).map Frame.name := by
    rw [List.map_cons, serialNest_names]; rfl
  refine ⟨serialOf rf rest, serialInit_ok h hs hp hl rfl, hnames, ?_, ?_, ?_, ?_⟩
  · show pyUnique ((serialRoot rf rest).getFrameNames false) = _
    rw [getFrameNames_eq, pyUnique_of_nodup hws.names_nodup, serialRoot_preorder, hnames]
  · show (Chain.init (serialRoot rf rest)).getJoints true = _
    rw [(C13_get_joints_partial _).2, serialRoot_moving]; rfl
  · show (Chain.init (serialRoot rf rest)).getJointParameterNames = _
    rw [(C07_columns _ hws).1, serialRoot_moving]; rfl
  · show (Chain.init (serialRoot rf rest)).nJoints = _
    rw [(C07_columns _ hws).2.1, serialRoot_moving]; rfl

/-- C20: construction succeeds, raises ValueError or raises KeyError exactly in the documented cases. -/
theorem C20_construction_outcome (root : Frame) (rootName endName : Name) (h : WF root) :
    ((∃ s, SerialChain.init root endName rootName = .ok s) ↔
      ∃ rf fe, StartsAt root rf rootName ∧ Below rf fe ∧ fe.name = endName) ∧
    (SerialChain.init root endName rootName = .error .valueError ↔
      rootName ≠ [] ∧ ∀ f ∈ preorder root, f.name ≠ rootName) ∧
    (SerialChain.init root endName rootName = .error .keyError ↔
      ∃ rf, StartsAt root rf rootName ∧ ∀ fe, Below rf fe → fe.name ≠ endName) := by
  have hroot : root ∈ preorder root := by rw [preorder_eq]; simp
  have huniq : ∀ rf rf', StartsAt root rf rootName → StartsAt root rf' rootName → rf = rf' := by
    rintro rf rf' ⟨h1, h2⟩ ⟨h3, h4⟩
    rcases h2 with ⟨h5, rfl⟩ | ⟨h5, h6⟩ <;> rcases h4 with ⟨h7, rfl⟩ | ⟨h7, h8⟩
    · rfl
    · exact absurd h5 h7
    · exact absurd h7 h5
    · exact List.inj_on_of_nodup_map h.names_nodup h1 h3 (h6.trans h8.symm)
  by_cases hv : rootName ≠ [] ∧ ∀ f ∈ preorder root, f.name ≠ rootName
  · have hns : ∀ rf, ¬ StartsAt root rf rootName := by
      rintro rf ⟨h1, ⟨h2, -⟩ | ⟨-, h2⟩⟩
      · exact hv.1 h2
      · exact hv.2 rf h1 h2
    rw [serialInit_bad_root hv.1 hv.2]
    refine ⟨⟨?_, ?_⟩, ⟨fun _ => hv, fun _ => rfl⟩, ⟨?_, ?_⟩⟩
    · rintro ⟨s, hs⟩; cases hs
    · rintro ⟨rf, fe, h1, -⟩; exact absurd h1 (hns rf)
    · intro hs; cases hs
    · rintro ⟨rf, h1, -⟩; exact absurd h1 (hns rf)
  · obtain ⟨rf, hs⟩ : ∃ rf, StartsAt root rf rootName := by
      by_cases h0 : rootName = []
      · exact ⟨root, hroot, .inl ⟨h0, rfl⟩⟩
      · have : ∃ f ∈ preorder root, f.name = rootName := by
          by_contra hc
          exact hv ⟨h0, fun f hf hn => hc ⟨f, hf, hn⟩⟩
        obtain ⟨f, hf, hn⟩ := this
        exact ⟨f, hf, .inr ⟨h0, hn⟩⟩
    by_cases hk : ∀ fe, Below rf fe → fe.name ≠ endName
    · rw [serialInit_bad_end h hs fun f hf => hk f (mem_preorder_iff_below.1 hf)]
      refine ⟨⟨?_, ?_⟩, ⟨?_, fun hc => absurd hc hv⟩, ⟨fun _ => ⟨rf, hs, hk⟩, fun _ => rfl⟩⟩
      · rintro ⟨s, hs⟩; cases hs
      · rintro ⟨rf', fe, h1, h2, h3⟩
        rw [huniq rf' rf h1 hs] at h2
        exact absurd h3 (hk fe h2)
      · intro hs; cases hs
    · obtain ⟨fe, hfe⟩ := not_forall.1 hk
      obtain ⟨hb, hn⟩ := Classical.not_imp.1 hfe
      rw [not_not] at hn
      obtain ⟨p, hp, hl⟩ := exists_path (mem_preorder_iff_below.2 hb)
      obtain ⟨rest, rfl⟩ := isPath_head hp
      rw [serialInit_ok h hs hp hl hn]
      refine ⟨⟨fun _ => ⟨rf, fe, hs, hb, hn⟩, fun _ => ⟨_, rfl⟩⟩, ⟨?_, fun hc => absurd hc hv⟩, ⟨?_, ?_⟩⟩
      · intro hs; cases hs
      · intro hs; cases hs
      · rintro ⟨rf', h1, h2⟩
        rw [huniq rf' rf h1 hs] at h2
        exact absurd hn (h2 fe hb)

/-- the arm of `exTree` below frame `s` -/
example : ∃ s, SerialChain.init exTree ['a'] ['s'] = .ok s := by
  rw [(C20_construction_outcome exTree ['s'] ['a'] exTree_wf).1]
  refine ⟨exTree.children[0], exTree.children[0].children[0], ⟨?_, .inr ⟨by simp, rfl⟩⟩, .child _ _ .refl (by simp), rfl⟩
  exact mem_preorder_iff_below.2 (.child _ _ .refl (by simp))

/-! ## C21 -/

/-- An input whose number of values the code counts correctly. -/
def JIn.Counted : JIn → Prop
  | .tensor _ _ | .vec _ | .list _ => True
  | .dict _ d => d ≠ []
  | .nested _ _ | .dictNum _ => False

/-- C21 (partial): too few values in a tensor, an array, a flat list or a non-empty dict of batched values
raise ValueError, with and without `end_only`. Missing: nested lists, the empty dict and dicts of
numbers, see the next theorems. -/
theorem C21_too_few_values_partial (root rf fe : Frame) (rootName : Name) (p : List Frame) (h : WF root)
    (hs : StartsAt root rf rootName) (hp : IsPath rf p) (hl : p.getLast? = some fe) (th : JIn) (hc : th.Counted)
    (hn : th.nJoints < (pathJoints p).length) :
    ∃ s, SerialChain.init root fe.name rootName = .ok s ∧ s.fkEnd th = .error .valueError ∧
      s.fkAll th = .error .valueError := by
  obtain ⟨rest, rfl⟩ := isPath_head hp
  have hws := serialRoot_wf (h.sub hs.1) hp
  have hb : th.batchSizeOk = .ok () := by
    cases th with
    | dict B d => cases d with
      | nil => exact absurd rfl hc
      | cons a d => rfl
    | dictNum d => exact absurd hc id
    | _ => rfl
  refine ⟨serialOf rf rest, serialInit_ok h hs hp hl rfl, ?_, fkWith_few _ hb hn⟩
  obtain ⟨fl, hfl, hfn, hfm⟩ := exists_last rf rest
  have h1 : (serialOf rf rest).serialFrames.getLast? = some fl := hfl
  have h2 : (serialOf rf rest).chain.frameToIdx.item fl.name = .ok (posOf (serialRoot rf rest) fl.name) := item_posOf hws hfm
  unfold SerialChain.fkEnd
  simp only [h1, h2, ok_bind, fkWith_few _ hb hn, error_bind]

/-- C21, what the code does instead: a dict of numbers raises IndexError whatever it contains, also when
it names every joint. -/
theorem C21_number_dict_raises (s : SerialChain) (d : Dict (Option Name) (Option ℝ)) :
    s.fkAll (.dictNum d) = .error .indexError := rfl

/-- C21 fails for nested lists: on a chain with two joints, two rows of one value each are accepted. -/
theorem C21_fails_nested_list : ∃ (root fe : Frame) (p : List Frame) (cols : List (Fin 2 → ℝ)) (s : SerialChain),
    WF root ∧ IsPath root p ∧ p.getLast? = some fe ∧ cols.length < (pathJoints p).length ∧
    SerialChain.init root fe.name = .ok s ∧ ∃ r, s.fkAll (.nested 2 cols) = .ok r := by
  have hp : IsPath exTree [exTree, exTree.children[0], exTree.children[0].children[0]] :=
    IsPath.snoc [exTree] _ _ (IsPath.snoc [] _ _ IsPath.single (by simp)) (by simp)
  have hs : StartsAt exTree exTree [] := ⟨by rw [preorder_eq]; simp, .inl ⟨rfl, rfl⟩⟩
  have hpj : (pathJoints [exTree, exTree.children[0], exTree.children[0].children[0]]).length = 2 := by
    simp [pathJoints, exTree, Frame.children, Frame.joint, Moving]
  refine ⟨exTree, exTree.children[0].children[0], _, [fun _ => 1], _, exTree_wf, hp, rfl, by rw [hpj]; simp,
    serialInit_ok exTree_wf hs hp rfl rfl, ?_⟩
  have hws := serialRoot_wf (exTree_wf.sub hs.1) hp
  rw [pathJoints_length] at hpj
  have hn : (serialOf exTree [exTree.children[0], exTree.children[0].children[0]]).chain.nJoints = 2 := by
    rw [← hpj]; exact init_nJoints _
  have h3 := forwardKinematics_some hws (B := 2) [fun _ => 1] [fun _ => 1, fun _ => 1] (by simp)
    (by rw [hpj]; rfl) ((preorder (serialRoot exTree [exTree.children[0], exTree.children[0].children[0]])).map Frame.name)
    (by simp)
  rw [← forwardKinematics_none hws] at h3
  obtain ⟨r, hr⟩ : ∃ r, (Chain.init (serialRoot exTree [exTree.children[0], exTree.children[0].children[0]])).forwardKinematics
      (B := 2) [fun _ => 1] = .ok r := ⟨_, h3⟩
  refine ⟨⟨2, r⟩, ?_⟩
  · unfold SerialChain.fkAll SerialChain.fkWith
    have hb : (JIn.nested 2 [fun _ => (1 : ℝ)]).batchSizeOk = .ok () := rfl
    have hnj : (JIn.nested 2 [fun _ => (1 : ℝ)]).nJoints = 2 := rfl
    rw [hb, ok_bind, if_neg (by rw [hn, hnj]; simp)]
    have hch : (serialOf exTree [exTree.children[0], exTree.children[0].children[0]]).chain =
      Chain.init (serialRoot exTree [exTree.children[0], exTree.children[0].children[0]]) := rfl
    simp only [hch, hr, ok_bind, pure_ok]

/-! ## C66 -/

/-- C66 (partial): a flat list, a 1-D tensor and the one-row tensor of the same values give the same
Jacobian and the same end pose. Missing: dicts. -/
theorem C66_same_values_partial (s : SerialChain) (v : List ℝ) :
    s.jacobian (.list v) = s.jacobian (.tensor 1 (oneRow v)) ∧ s.jacobian (.vec v) = s.jacobian (.tensor 1 (oneRow v)) ∧
    s.fkEnd (.list v) = s.fkEnd (.tensor 1 (oneRow v)) ∧ s.fkEnd (.vec v) = s.fkEnd (.tensor 1 (oneRow v)) := by
  have hl : (oneRow v).length = v.length := by simp [oneRow]
  have h1 : ∀ fis, s.fkWith (.list v) fis = s.fkWith (.tensor 1 (oneRow v)) fis := by
    intro fis
    have hn : (JIn.list v).nJoints = (JIn.tensor 1 (oneRow v)).nJoints := hl.symm
    have hb : (JIn.list v).batchSizeOk = (JIn.tensor 1 (oneRow v)).batchSizeOk := rfl
    unfold SerialChain.fkWith
    rw [hb, hn]
  have h2 : ∀ fis, s.fkWith (.vec v) fis = s.fkWith (.tensor 1 (oneRow v)) fis := by
    intro fis
    have hn : (JIn.vec v).nJoints = (JIn.tensor 1 (oneRow v)).nJoints := hl.symm
    have hb : (JIn.vec v).batchSizeOk = (JIn.tensor 1 (oneRow v)).batchSizeOk := rfl
    unfold SerialChain.fkWith
    rw [hb, hn]
  refine ⟨rfl, rfl, ?_, ?_⟩
  · unfold SerialChain.fkEnd; simp only [h1]
  · unfold SerialChain.fkEnd; simp only [h2]

/-- C66 fails for dicts: `jacobian` documents them but raises on every one. -/
theorem C66_fails_jacobian_dict (s : SerialChain) (B : ℕ) (d : Dict (Option Name) (Fin B → Option ℝ))
    (d' : Dict (Option Name) (Option ℝ)) :
    s.jacobian (.dict B d) = .error .runtimeError ∧ s.jacobian (.dictNum d') = .error .runtimeError := ⟨rfl, rfl⟩

end PK
