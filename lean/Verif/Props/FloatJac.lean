import Verif.Lemmas.JacRound
import Verif.Props.Float
import Verif.Props.Serial

/-!
# C114: rounding errors of the Jacobian
-/

namespace PK
open Spec Matrix

/-! ## the ideal robot -/

/-- the joint of the ideal robot -/
noncomputable def idealJoint (I : Ideal) (f : Frame) : Joint := { f.joint with axis := I.ax f }

theorem ideal_motion_eq (I : Ideal) (f : Frame) (q : ℝ) : I.motion f q = motion (idealJoint I f) q := rfl

theorem ideal_pose_append (I : Ideal) (val : Joint → ℝ) (p q : List Frame) : I.pose val (p ++ q) = I.pose val p * I.pose val q := by
  simp [Ideal.pose]

theorem ideal_motion_rigid {δ τ : ℝ} {I : Ideal} {f : Frame} (h : StoredAs δ τ I f) (q : ℝ) : IsRigid (I.motion f q) := by
  have hu := h.unit
  unfold Ideal.motion
  cases ht : f.joint.jtype with
  | fixed => exact isRigid_one
  | revolute => exact isRigid_mkHom (isRot_rotAbout (hu (by simp [Moving, ht])) _) _
  | prismatic => exact isRigid_mkHom isRot_one _

theorem ideal_pose_rigid {δ τ : ℝ} {I : Ideal} (val : Joint → ℝ) {p : List Frame} (h : ∀ f ∈ p, StoredAs δ τ I f) :
    IsRigid (I.pose val p) := by
  induction p with
  | nil => exact isRigid_one
  | cons f p ih =>
    have e : I.pose val (f :: p) = I.lo f * I.jo f * I.motion f (val f.joint) * I.pose val p := by simp [Ideal.pose]
    rw [e]
    have hf := h f (by simp)
    exact ((hf.lo.rigid.mul hf.jo.rigid).mul (ideal_motion_rigid hf _)).mul (ih fun g hg => h g (by simp [hg]))

theorem ideal_reach_nonneg (I : Ideal) (val : Joint → ℝ) (p : List Frame) : 0 ≤ I.reach val p := by
  unfold Ideal.reach
  refine List.sum_nonneg fun x hx => ?_
  obtain ⟨f, -, rfl⟩ := List.mem_map.1 hx
  have h1 := vlen_nonneg (posPart (I.lo f))
  have h2 := vlen_nonneg (posPart (I.jo f))
  have h3 : 0 ≤ travel f (val f.joint) := by unfold travel; split <;> positivity
  positivity

theorem ideal_reach_append (I : Ideal) (val : Joint → ℝ) (p q : List Frame) :
    I.reach val (p ++ q) = I.reach val p + I.reach val q := by
  simp [Ideal.reach]

theorem ideal_pose_len {δ τ : ℝ} {I : Ideal} (val : Joint → ℝ) {p : List Frame} (h : ∀ f ∈ p, StoredAs δ τ I f) :
    vlen (posPart (I.pose val p)) ≤ I.reach val p := by
  induction p with
  | nil => simp [Ideal.pose, Ideal.reach, posPart, vlen]
  | cons f p ih =>
    have hf := h f (by simp)
    have hp := fun g (hg : g ∈ p) => h g (by simp [hg])
    have e : I.pose val (f :: p) = I.lo f * (I.jo f * (I.motion f (val f.joint) * I.pose val p)) := by
      simp [Ideal.pose, mul_assoc]
    have hr := ideal_pose_rigid val hp
    have hm := ideal_motion_rigid hf (val f.joint)
    have step : ∀ {A C : M4}, IsRigid A → IsRigid C → vlen (posPart (A * C)) ≤ vlen (posPart A) + vlen (posPart C) := by
      intro A C hA hC
      rw [posPart_mul hC.2]
      refine (vlen_add_le _ _).trans ?_
      have hAR : IsRot (rotPart A) := hA.1
      rw [vlen_rot hAR, add_comm]
    have s1 := step hm hr
    have s2 := step hf.jo.rigid (hm.mul hr)
    have s3 := step hf.lo.rigid (hf.jo.rigid.mul (hm.mul hr))
    have s4 : vlen (posPart (I.motion f (val f.joint))) ≤ travel f (val f.joint) := by
      have hu := hf.unit
      unfold Ideal.motion travel
      cases ht : f.joint.jtype with
      | fixed => simp [posPart, vlen]
      | revolute => simp [vlen]
      | prismatic =>
        simp only
        rw [posPart_mkHom, vlen_smul, vlen_unit (hu (by simp [Moving, ht])), mul_one]
    have s5 : I.reach val (f :: p) =
        vlen (posPart (I.lo f)) + vlen (posPart (I.jo f)) + travel f (val f.joint) + I.reach val p := by
      simp [Ideal.reach]
    rw [e, s5]
    have := ih hp
    linarith

/-- velocity of the ideal robot's end, with a tool, when one joint moves -/
theorem ideal_twist {δ τ : ℝ} {sr : Frame} (h : WF sr) {I : Ideal} {B : ℕ} (th : List (Fin B → ℝ))
    (hth : th.length = (movingJoints sr).length) {p1 p2 : List Frame} {f : Frame} (hp : IsPath sr (p1 ++ [f] ++ p2))
    (hI : ∀ g ∈ p1 ++ [f] ++ p2, StoredAs δ τ I g) (mf : Moving f.joint) (b : Fin B) {tool : M4} (htool : IsAffine tool) :
    let z := rotPart (I.pose (colVal sr th b) (p1 ++ [f])) *ᵥ I.ax f
    let dp := posPart (I.pose (colVal sr th b) (p1 ++ [f] ++ p2) * tool) - posPart (I.pose (colVal sr th b) (p1 ++ [f]))
    HasTwistAt (fun x => I.pose (colVal sr (setEntry th (column sr f.joint) b x) b) (p1 ++ [f] ++ p2) * tool)
      (if f.joint.jtype = .revolute then cross z dp else z) (if f.joint.jtype = .revolute then z else 0)
      (colVal sr th b f.joint) := by
  intro z dp
  have hnd := isPath_nodup h hp
  have hmem := isPath_mem hp
  have hf : f ∈ preorder sr := hmem f (by simp)
  have hf1 : f ∉ p1 := by
    rw [List.append_assoc, List.nodup_append] at hnd
    intro hc
    exact hnd.2.2 f hc f (by simp) rfl
  have hf2 : f ∉ p2 := by
    rw [List.nodup_append] at hnd
    intro hc
    exact hnd.2.2 f (by simp) f hc rfl
  have hlt : column sr f.joint < th.length := by
    obtain ⟨j, e, he, rfl⟩ := exists_pos hf
    rw [hth]; exact column_lt (List.mem_of_getElem? he) mf
  have hconst : ∀ q : List Frame, (∀ g ∈ q, g ∈ preorder sr) → f ∉ q → ∀ x,
      I.pose (colVal sr (setEntry th (column sr f.joint) b x) b) q = I.pose (colVal sr th b) q := by
    intro q hq hfq x
    unfold Ideal.pose
    congr 1
    refine List.map_congr_left fun g hg => ?_
    congr 1
    by_cases mg : Moving g.joint
    · rw [colVal_setEntry th _ hlt, if_neg]
      rintro ⟨hc, -⟩
      exact hfq (h.column_inj (hq g hg) hf mg mf hc ▸ hg)
    · rw [ideal_motion_eq, ideal_motion_eq]
      exact motion_fixed (j := idealJoint I g) mg _ _
  set A := I.pose (colVal sr th b) p1 * (I.lo f * I.jo f) with hA
  set C := I.pose (colVal sr th b) p2 with hC
  have e1 : ∀ x, I.pose (colVal sr (setEntry th (column sr f.joint) b x) b) (p1 ++ [f]) = A * motion (idealJoint I f) x := by
    intro x
    rw [ideal_pose_append, hconst p1 (fun g hg => hmem g (by simp [hg])) hf1]
    simp [Ideal.pose, colVal_setEntry th _ hlt, hA, ← ideal_motion_eq, mul_assoc]
  have e2 : ∀ x, I.pose (colVal sr (setEntry th (column sr f.joint) b x) b) (p1 ++ [f] ++ p2) * tool =
      A * motion (idealJoint I f) x * (C * tool) := by
    intro x
    rw [ideal_pose_append, e1, hconst p2 (fun g hg => hmem g (by simp [hg])) hf2, mul_assoc]
  set x0 := colVal sr th b f.joint with hx0
  have hself : setEntry th (column sr f.joint) b x0 = th := setEntry_self th _ b
  have e10 := e1 x0
  have e20 := e2 x0
  rw [hself] at e10 e20
  have hCt : IsAffine (C * tool) := by
    have hr : IsRigid C := ideal_pose_rigid _ fun g hg => hI g (by simp [hg])
    have h1 := eq_mkHom_of_affine hr.2
    have h2 := eq_mkHom_of_affine htool
    rw [h1, h2, mkHom_mul]
    funext j; fin_cases j <;> simp [mkHom]
  have hrig : IsRigid (A * motion (idealJoint I f) x0) := by
    rw [← e10]; exact ideal_pose_rigid _ fun g hg => hI g (by simp at hg ⊢; tauto)
  have hd := hasDerivAt_sandwich (hasDerivAt_motion (j := idealJoint I f) (fun hm => (hI f (by simp)).unit hm) x0) A (C * tool)
  have hg := twist_geometry (j := idealJoint I f) hrig hCt
  simp only [← mul_assoc] at hd hg e20 e2
  rw [hg, ← e20, ← e10] at hd
  simp only [← e2] at hd
  have hz : rotPart (I.pose (colVal sr th b) (p1 ++ [f])) *ᵥ (idealJoint I f).axis = z := rfl
  have hdd : posPart (I.pose (colVal sr th b) (p1 ++ [f] ++ p2) * tool) - posPart (I.pose (colVal sr th b) (p1 ++ [f])) = dp := rfl
  have hty : (idealJoint I f).jtype = f.joint.jtype := rfl
  rw [hz, hdd, hty] at hd
  cases ht : f.joint.jtype
  · exact absurd ht mf
  · simp only [ht] at hd
    refine ⟨fun i => ?_, fun i j => ?_⟩
    · have := hd i.castSucc 3
      fin_cases i <;> simpa [mkTwist] using this
    · have := hd i.castSucc j.castSucc
      simp only [hself]
      convert this using 1
      fin_cases i <;> fin_cases j <;> rfl
  · simp only [ht] at hd
    refine ⟨fun i => ?_, fun i j => ?_⟩
    · have := hd i.castSucc 3
      fin_cases i <;> simpa [mkTwist] using this
    · have := hd i.castSucc j.castSucc
      convert this using 1
      have h0 : hat 0 = 0 := by rw [hat_eq]; ext i j; fin_cases i <;> fin_cases j <;> simp
      simp only [reduceCtorEq, if_false, h0, Matrix.zero_mul]
      fin_cases i <;> fin_cases j <;> rfl

/-! ## the machine's Jacobian -/

/-- the serial chain constructed on the machine -/
noncomputable def serialFl (m : Machine) (rf : Frame) (rest : List Frame) : SerialChain :=
  { serialOf rf rest with chain := Chain.initFl m (serialRoot rf rest) }

theorem serialInitFl_ok (m : Machine) {root rf fe : Frame} (h : WF root) {rootName : Name} (hs : StartsAt root rf rootName)
    {rest : List Frame} (hp : IsPath rf (rf :: rest)) (hl : (rf :: rest).getLast? = some fe) :
    SerialChain.initFl m root fe.name rootName = .ok (serialFl m rf rest) := by
  unfold SerialChain.initFl
  rw [serialInit_ok h hs hp hl rfl, ok_bind, pure_ok]
  rfl

theorem tensorAt_poseFl (m : Machine) {sr f : Frame} (h : WF sr) {B : ℕ} (th : List (Fin B → ℝ)) (hf : f ∈ preorder sr) :
    tensorAt ((List.range (visit sr).length).map (poseFl m sr th)) (posOf sr f.name) =
      .ok (poseFl m sr th (posOf sr f.name)) := by
  obtain ⟨j, e, he, rfl⟩ := exists_pos hf
  have hj : j < (visit sr).length := (List.getElem?_eq_some_iff.1 he).1
  rw [h.posOf_eq he, tensorAt, List.getElem?_map, List.getElem?_range hj]
  rfl

theorem poseFl_posOf (m : Machine) {sr f : Frame} (h : WF sr) {B : ℕ} (th : List (Fin B → ℝ)) {p : List Frame}
    (hp : IsPath sr p) (hl : p.getLast? = some f) (b : Fin B) :
    poseFl m sr th (posOf sr f.name) b = pathFl m (colVal sr th b) p := by
  obtain ⟨j, e, pi, h1, h2, h3, h4⟩ := isPath_ancestors sr hp
  rw [h4] at hl
  simp only [Option.some.injEq] at hl
  subst hl
  rw [h.posOf_eq h1]
  exact poseFl_path m sr th h2 h3 b

/-- one column of the machine's Jacobian -/
noncomputable def jcolFl (m : Machine) (T Tk : M4) (axis : V3) (rev : Prop) [Decidable rev] : Fin 6 → ℝ :=
  let z := axisFl m Tk axis
  let v := if rev then crossFl m z fun i => m.rnd (posPart T i - posPart Tk i) else z
  let w := if rev then z else 0
  ![v 0, v 1, v 2, w 0, w 1, w 2]

/-- one column of the machine's Jacobian with a tool -/
noncomputable def jcolToolFl (m : Machine) (T Tk tool : M4) (axis : V3) (rev : Prop) [Decidable rev] : Fin 6 → ℝ :=
  let c := jcolFl m T Tk axis rev
  let k : V3 := if rev then crossFl m (axisFl m Tk axis) fun i => m.rnd (posPart (m.mul T tool) i - posPart T i) else 0
  ![m.rnd (c 0 + k 0), m.rnd (c 1 + k 1), m.rnd (c 2 + k 2), c 3, c 4, c 5]

section
variable (m : Machine) {rf : Frame} {rest : List Frame} (h : WF (serialRoot rf rest)) {B : ℕ}
  (th : List (Fin B → ℝ)) (hth : th.length = (pathJoints (rf :: rest)).length)
include h hth

theorem serialFl_fkTensor : (serialFl m rf rest).chain.fkTensorFl m th =
    .ok ((List.range (visit (serialRoot rf rest)).length).map (poseFl m (serialRoot rf rest) th)) := by
  rw [pathJoints_length] at hth
  apply fkTensorFl_ok m h.joints_nodup
  · intro hne; rw [hth]; exact List.length_pos_iff.2 hne
  · simp [broadcastCols, hth]

omit hth in
theorem serialFl_tdof : (serialFl m rf rest).dofFrameIndices.mapM
      (fun i => tensorAt ((List.range (visit (serialRoot rf rest)).length).map (poseFl m (serialRoot rf rest) th)) i) =
    .ok ((dofFrames rf rest).map fun f => poseFl m (serialRoot rf rest) th (posOf (serialRoot rf rest) f.name)) := by
  apply mapM_congr_ok
  show List.Forall₂ _ ((dofFrames rf rest).map fun f => posOf (serialRoot rf rest) f.name) _
  rw [List.forall₂_map_left_iff, List.forall₂_map_right_iff, List.forall₂_same]
  intro f hf
  exact tensorAt_poseFl m h th (dofFrames_mem hf).1

omit hth in
theorem serialFl_tee : tensorAt ((List.range (visit (serialRoot rf rest)).length).map (poseFl m (serialRoot rf rest) th))
      (serialFl m rf rest).eefIdx =
    .ok (poseFl m (serialRoot rf rest) th (posOf (serialRoot rf rest) (lastName rf rest))) := by
  obtain ⟨fl, -, hfn, hfm⟩ := exists_last rf rest
  have hee := tensorAt_poseFl m h th hfm
  rw [hfn] at hee
  exact hee

omit hth in
theorem serialFl_cols : jacobianColsFl m
      ((List.range (visit (serialRoot rf rest)).length).map (poseFl m (serialRoot rf rest) th))
      (serialFl m rf rest).eefIdx (serialFl m rf rest).dofFrameIndices (serialFl m rf rest).dofAxes (serialFl m rf rest).dofTypes =
    .ok ((dofFrames rf rest).map fun f b =>
      jcolFl m (poseFl m (serialRoot rf rest) th (posOf (serialRoot rf rest) (lastName rf rest)) b)
        (poseFl m (serialRoot rf rest) th (posOf (serialRoot rf rest) f.name) b) f.joint.axis (f.joint.jtype = .revolute)) := by
  unfold jacobianColsFl
  rw [serialFl_tee m h th, serialFl_tdof m h th]
  simp only [ok_bind, pure_ok]
  have hax : (serialFl m rf rest).dofAxes = (dofFrames rf rest).map fun f => f.joint.axis := rfl
  have hty : (serialFl m rf rest).dofTypes = (dofFrames rf rest).map fun f => if f.joint.jtype = .revolute then 1 else 2 := rfl
  rw [hax, hty, zipWith_maps]
  congr 2
  funext f b
  by_cases ht : f.joint.jtype = .revolute <;> simp [jcolFl, ht]

theorem jacobianTensorFl_ok : (serialFl m rf rest).jacobianTensorFl m th = .ok
    ((dofFrames rf rest).map (fun f b =>
      jcolFl m (poseFl m (serialRoot rf rest) th (posOf (serialRoot rf rest) (lastName rf rest)) b)
        (poseFl m (serialRoot rf rest) th (posOf (serialRoot rf rest) f.name) b) f.joint.axis (f.joint.jtype = .revolute)),
      poseFl m (serialRoot rf rest) th (posOf (serialRoot rf rest) (lastName rf rest))) := by
  unfold SerialChain.jacobianTensorFl
  rw [serialFl_fkTensor m h th hth, ok_bind, serialFl_cols m h th, ok_bind, serialFl_tee m h th, ok_bind, pure_ok]

theorem jacobianToolFl_ok {tool : List M4} {tm : Fin B → M4} (htool : broadcastTool B tool = .ok tm) :
    (serialFl m rf rest).jacobianToolFl m th tool = .ok
    ((dofFrames rf rest).map (fun f b =>
      jcolToolFl m (poseFl m (serialRoot rf rest) th (posOf (serialRoot rf rest) (lastName rf rest)) b)
        (poseFl m (serialRoot rf rest) th (posOf (serialRoot rf rest) f.name) b) (tm b) f.joint.axis (f.joint.jtype = .revolute)),
      fun b => m.mul (poseFl m (serialRoot rf rest) th (posOf (serialRoot rf rest) (lastName rf rest)) b) (tm b)) := by
  unfold SerialChain.jacobianToolFl
  rw [serialFl_fkTensor m h th hth, ok_bind, serialFl_cols m h th, ok_bind, serialFl_tee m h th, ok_bind, htool, ok_bind,
    serialFl_tdof m h th, ok_bind, pure_ok]
  have hax : (serialFl m rf rest).dofAxes = (dofFrames rf rest).map fun f => f.joint.axis := rfl
  have hty : (serialFl m rf rest).dofTypes = (dofFrames rf rest).map fun f => if f.joint.jtype = .revolute then 1 else 2 := rfl
  rw [hax, hty, zipWith_maps, zipWith_maps2]
  congr 2
  refine List.map_congr_left fun f _ => ?_
  funext b
  by_cases ht : f.joint.jtype = .revolute <;> simp [jcolToolFl, ht]

end

/-! ## bounds -/

/-- how long the linear part of a column can be: up to the length of the arm for a revolute joint, 1 for a prismatic joint -/
noncomputable def Spec.colSize (f : Frame) (l : ℝ) : ℝ := if f.joint.jtype = .revolute then l else 1

theorem factor_cols {δ τ γ Q g : ℝ} (hδ : 0 ≤ δ) (hτ : 0 ≤ τ) (hγ : 0 ≤ γ) (h1 : τ ≤ 1 / 100)
    (hQ : Q = (1 + δ) ^ 2 * (1 + 54 * τ) * (1 + 3 * γ) ^ 3) (hg : 0 ≤ g) :
    1 ≤ Q ∧ (1 + g) * (1 + 2 * τ) * (1 + 2 * γ) * (1 + τ) ≤ (1 + g) * Q ∧
      (1 + g) * (1 + 2 * τ) * (1 + 2 * γ) * ((1 + 2 * g) * (1 + τ)) * (1 + 2 * γ) ≤ (1 + g) ^ 3 * Q ∧ 1 + τ ≤ Q ∧
      (1 + δ) * (1 + 3 * γ) ≤ Q := by
  have a1 : 1 ≤ (1 + δ) ^ 2 := one_le_pow₀ (by linarith)
  have a2 : 1 + δ ≤ (1 + δ) ^ 2 := by nlinarith
  have a3 : (1 + 2 * τ) * (1 + τ) ≤ 1 + 54 * τ := by nlinarith
  have a4 : (1 + 2 * γ) ^ 2 ≤ (1 + 3 * γ) ^ 3 := by nlinarith [mul_nonneg hγ hγ, pow_nonneg hγ 3]
  have a5 : 1 + 2 * γ ≤ (1 + 2 * γ) ^ 2 := by nlinarith
  have a6 : 1 ≤ (1 + 3 * γ) ^ 3 := one_le_pow₀ (by linarith)
  have a7 : 1 + 3 * γ ≤ (1 + 3 * γ) ^ 3 := by nlinarith [mul_nonneg hγ hγ, pow_nonneg hγ 3]
  have b1 : (1 + 2 * τ) * (1 + τ) * (1 + 2 * γ) ^ 2 ≤ Q := by
    rw [hQ]
    calc (1 + 2 * τ) * (1 + τ) * (1 + 2 * γ) ^ 2 ≤ (1 + 54 * τ) * (1 + 3 * γ) ^ 3 :=
          mul_le_mul a3 a4 (by positivity) (by positivity)
      _ ≤ (1 + δ) ^ 2 * ((1 + 54 * τ) * (1 + 3 * γ) ^ 3) := le_mul_of_one_le_left (by positivity) a1
      _ = _ := by ring
  have b2 : (1 + 2 * τ) * (1 + τ) * (1 + 2 * γ) ≤ (1 + 2 * τ) * (1 + τ) * (1 + 2 * γ) ^ 2 :=
    mul_le_mul_of_nonneg_left a5 (by positivity)
  have b3 : 1 + τ ≤ (1 + 2 * τ) * (1 + τ) * (1 + 2 * γ) := by
    have : 1 ≤ (1 + 2 * τ) * (1 + 2 * γ) := one_le_mul_of_one_le_of_one_le (by linarith) (by linarith)
    nlinarith
  refine ⟨by linarith, ?_, ?_, by linarith, ?_⟩
  · calc _ = (1 + g) * ((1 + 2 * τ) * (1 + τ) * (1 + 2 * γ)) := by ring
      _ ≤ _ := mul_le_mul_of_nonneg_left (b2.trans b1) (by linarith)
  · calc _ = ((1 + g) * (1 + 2 * g)) * ((1 + 2 * τ) * (1 + τ) * (1 + 2 * γ) ^ 2) := by ring
      _ ≤ (1 + g) ^ 3 * Q := mul_le_mul (by nlinarith [mul_nonneg hg hg, pow_nonneg hg 3]) b1 (by positivity) (by positivity)
  · rw [hQ]
    calc (1 + δ) * (1 + 3 * γ) ≤ (1 + δ) ^ 2 * (1 + 3 * γ) ^ 3 := mul_le_mul a2 a7 (by positivity) (by positivity)
      _ ≤ (1 + δ) ^ 2 * (1 + 3 * γ) ^ 3 * (1 + 54 * τ) := le_mul_of_one_le_right (by positivity) (by linarith)
      _ = _ := by ring

/-- a column computed from approximate poses -/
theorem jcolFl_near (m : Machine) {δ τ Q g l : ℝ} (hu : m.u ≤ τ) (h1 : τ ≤ 1 / 100) (hδ : 0 ≤ δ)
    (hQ : Q = (1 + δ) ^ 2 * (1 + 54 * τ) * (1 + 3 * m.γ) ^ 3) {T' T Tk' Tk : M4} (hT : Within g l T' T) (hk : Within g l Tk' Tk)
    (hl : vlen (posPart T - posPart Tk) ≤ l) {a' a : V3} (hun : IsUnitV a) (ha : ∀ i, |a' i - a i| ≤ τ) (f : Frame) :
    let c := jcolFl m T' Tk' a' (f.joint.jtype = .revolute)
    let z := rotPart Tk *ᵥ a
    vlen (![c 0, c 1, c 2] - if f.joint.jtype = .revolute then cross z (posPart T - posPart Tk) else z) ≤
        ((1 + g) ^ 3 * Q - 1) * colSize f l ∧
      vlen (![c 3, c 4, c 5] - if f.joint.jtype = .revolute then z else 0) ≤ (1 + g) * Q - 1 := by
  intro c z
  have hτ : 0 ≤ τ := m.u_nonneg.trans hu
  have hg := hT.g_nonneg
  have hl0 := hT.l_nonneg
  have hγ := m.γ_nonneg
  obtain ⟨q1, q2, q3, q4, q5⟩ := factor_cols hδ hτ hγ h1 hQ hg
  obtain ⟨hz, hz1⟩ := axisFl_within m hk hun ha
  have hd := diffFl_within m hu hT.pos hk.pos hl
  have hc := crossFl_within m hz hz1.le hd hl
  have q6 : (1 + g) * (1 + 2 * τ) * (1 + 2 * m.γ) ≤ (1 + g) * Q :=
    (le_mul_of_one_le_right (by positivity) (by linarith)).trans q2
  have q7 : (1 + g) * Q ≤ (1 + g) ^ 3 * Q := mul_le_mul_of_nonneg_right (by nlinarith [mul_nonneg hg hg, pow_nonneg hg 3]) (by linarith)
  have e3 : ∀ v : V3, ![v 0, v 1, v 2] = v := fun v => by funext i; fin_cases i <;> rfl
  by_cases ht : f.joint.jtype = .revolute
  · simp only [c, jcolFl, ht, if_true, colSize]
    simp only [cons_val]
    rw [e3, e3]
    refine ⟨hc.trans (mul_le_mul_of_nonneg_right ?_ hl0), hz.trans (by linarith)⟩
    simp only [add_sub_cancel] 
    linarith
  · simp only [c, jcolFl, ht, if_false, colSize]
    simp only [cons_val]
    rw [e3, e3]
    refine ⟨hz.trans (by rw [mul_one]; linarith), ?_⟩
    simp [vlen]
    nlinarith

set_option maxHeartbeats 800000 in
/-- a column with a tool, computed from approximate poses -/
theorem jcolToolFl_near (m : Machine) {δ τ Q g g' l lt : ℝ} (hu : m.u ≤ τ) (h1 : τ ≤ 1 / 100) (hδ : 0 ≤ δ)
    (hQ : Q = (1 + δ) ^ 2 * (1 + 54 * τ) * (1 + 3 * m.γ) ^ 3) {T' T Tk' Tk t' t : M4} (hT : Within g l T' T) (hk : Within g l Tk' Tk)
    (ht : Within δ lt t' t) (hg' : (1 + g) * Q = 1 + g')
    (hl : vlen (posPart T - posPart Tk) ≤ l) {a' a : V3} (hun : IsUnitV a) (ha : ∀ i, |a' i - a i| ≤ τ) (f : Frame) :
    let c := jcolToolFl m T' Tk' t' a' (f.joint.jtype = .revolute)
    let z := rotPart Tk *ᵥ a
    Within g' (l + lt) (m.mul T' t') (T * t) ∧
    vlen (![c 0, c 1, c 2] - if f.joint.jtype = .revolute then cross z (posPart (T * t) - posPart Tk) else z) ≤
        2 * ((1 + g') ^ 3 * Q ^ 2 - 1) * colSize f (l + lt) ∧
      vlen (![c 3, c 4, c 5] - if f.joint.jtype = .revolute then z else 0) ≤ (1 + g) * Q - 1 := by
  intro c z
  have hτ : 0 ≤ τ := m.u_nonneg.trans hu
  have hg := hT.g_nonneg
  have hl0 := hT.l_nonneg
  have hlt0 := ht.l_nonneg
  have hγ := m.γ_nonneg
  obtain ⟨q1, q2, q3, q4, q5⟩ := factor_cols hδ hτ hγ h1 hQ hg
  have hgg : g ≤ g' := by nlinarith
  have hg0 : 0 ≤ g' := hg.trans hgg
  obtain ⟨-, -, q3', -, -⟩ := factor_cols hδ hτ hγ h1 hQ hg0
  obtain ⟨hcv, hcw⟩ := jcolFl_near m hu h1 hδ hQ hT hk hl hun ha f
  have hTT : Within g' (l + lt) (m.mul T' t') (T * t) := by
    refine (hT.mul m ht).mono ?_ le_rfl
    have := mul_le_mul_of_nonneg_left q5 (show 0 ≤ 1 + g by linarith)
    nlinarith
  refine ⟨hTT, ?_⟩
  set X := (1 + g') ^ 3 * Q with hX
  have hX1 : 1 ≤ X := one_le_mul_of_one_le_of_one_le (one_le_pow₀ (by linarith)) q1
  have e3 : ∀ v : V3, ![v 0, v 1, v 2] = v := fun v => by funext i; fin_cases i <;> rfl
  have hXQ : X * (1 + τ) ≤ (1 + g') ^ 3 * Q ^ 2 := by
    calc X * (1 + τ) ≤ X * Q := mul_le_mul_of_nonneg_left q4 (by linarith)
      _ = _ := by rw [hX]; ring
  by_cases hr : f.joint.jtype = .revolute
  · obtain ⟨hz, hz1⟩ := axisFl_within m (hk.mono hgg (le_add_of_nonneg_right hlt0)) hun ha
    have hT2 := hT.mono hgg (le_add_of_nonneg_right hlt0 : l ≤ l + lt)
    have hR : IsRot (rotPart T) := hT.rigid.1
    have hdl : vlen (posPart (T * t) - posPart T) ≤ lt := by
      rw [posPart_mul ht.rigid.2, add_sub_cancel_right, vlen_rot hR]; exact ht.len
    have hd := diffFl_within m hu hTT.pos hT2.pos (hdl.trans (by linarith))
    have hkk := crossFl_within m hz hz1.le hd (hdl.trans (by linarith))
    have hkk' : vlen (crossFl m (axisFl m Tk' a') (fun i => m.rnd (posPart (m.mul T' t') i - posPart T' i)) -
        cross z (posPart (T * t) - posPart T)) ≤ (X - 1) * (l + lt) := by
      refine hkk.trans (mul_le_mul_of_nonneg_right ?_ (by linarith))
      simp only [add_sub_cancel]
      linarith
    simp only [jcolFl, hr, if_true, colSize] at hcv hcw
    simp only [cons_val] at hcv hcw
    rw [e3] at hcv hcw
    simp only [c, jcolToolFl, jcolFl, hr, if_true, colSize]
    simp only [cons_val]
    rw [e3]
    refine ⟨?_, hcw⟩
    set c' := crossFl m (axisFl m Tk' a') fun i => m.rnd (posPart T' i - posPart Tk' i) with hc'
    set k' := crossFl m (axisFl m Tk' a') fun i => m.rnd (posPart (m.mul T' t') i - posPart T' i) with hk'
    have e4 : (![m.rnd (c' 0 + k' 0), m.rnd (c' 1 + k' 1), m.rnd (c' 2 + k' 2)] : V3) = fun i => m.rnd ((c' + k') i) := by
      funext i; fin_cases i <;> rfl
    rw [e4]
    have hcv' : vlen (c' - cross z (posPart T - posPart Tk)) ≤ (X - 1) * (l + lt) := by
      refine hcv.trans (mul_le_mul (sub_le_sub_right ?_ 1) (by linarith) hl0 (by linarith))
      exact mul_le_mul_of_nonneg_right (pow_le_pow_left₀ (by linarith) (by linarith) 3) (by linarith)
    have hsum : vlen (c' + k' - cross z (posPart (T * t) - posPart Tk)) ≤ 2 * (X - 1) * (l + lt) := by
      have e : c' + k' - cross z (posPart (T * t) - posPart Tk) =
          (c' - cross z (posPart T - posPart Tk)) + (k' - cross z (posPart (T * t) - posPart T)) := by
        rw [show posPart (T * t) - posPart Tk = (posPart T - posPart Tk) - (posPart T - posPart (T * t)) by abel,
          show posPart (T * t) - posPart T = (0 : V3) - (posPart T - posPart (T * t)) by abel,
          cross_sub_right, cross_sub_right z 0]
        have : cross z 0 = 0 := by ext i; fin_cases i <;> simp [cross]
        rw [this]; abel
      rw [e]
      exact (vlen_add_le _ _).trans (by linarith)
    have hlen : vlen (cross z (posPart (T * t) - posPart Tk)) ≤ l + lt := by
      refine (vlen_cross_le _ _).trans ?_
      rw [hz1, one_mul, show posPart (T * t) - posPart Tk = (posPart (T * t) - posPart T) + (posPart T - posPart Tk) by abel]
      exact (vlen_add_le _ _).trans (by linarith)
    have hr1 := rnd_vec m (c' + k')
    have hr2 := vlen_le_of_near hsum hlen
    have hr3 : m.u * vlen (c' + k') ≤ τ * (l + lt + 2 * (X - 1) * (l + lt)) := mul_le_mul hu hr2 (vlen_nonneg _) hτ
    refine (vlen_tri (hr1.trans hr3) hsum).trans ?_
    have : (0:ℝ) ≤ l + lt := by linarith
    have h5 : τ * (l + lt + 2 * (X - 1) * (l + lt)) + 2 * (X - 1) * (l + lt) = (2 * (X * (1 + τ) - 1) - τ) * (l + lt) := by ring
    rw [h5]
    exact mul_le_mul_of_nonneg_right (by linarith) this
  · obtain ⟨hz, hz1⟩ := axisFl_within m hk hun ha
    simp only [jcolFl, hr, if_false, colSize] at hcv hcw
    simp only [cons_val] at hcv hcw
    simp only [c, jcolToolFl, jcolFl, hr, if_false, colSize]
    simp only [cons_val, Pi.zero_apply, add_zero]
    refine ⟨?_, hcw⟩
    set z' := axisFl m Tk' a' with hz'
    have e4 : (![m.rnd (z' 0), m.rnd (z' 1), m.rnd (z' 2)] : V3) = fun i => m.rnd (z' i) := by
      funext i; fin_cases i <;> rfl
    rw [e4, mul_one]
    have hr1 := rnd_vec m z'
    have hr2 := vlen_le_of_near hz hz1.le
    have hr3 : m.u * vlen z' ≤ τ * (1 + ((1 + g) * (1 + 2 * τ) * (1 + 2 * m.γ) - 1)) := mul_le_mul hu hr2 (vlen_nonneg _) hτ
    refine (vlen_tri (hr1.trans hr3) hz).trans ?_
    have h6 : (1 + g) * Q ≤ X := by
      rw [hX]
      refine mul_le_mul_of_nonneg_right ?_ (by linarith)
      exact (show 1 + g ≤ 1 + g' by linarith).trans (le_self_pow₀ (by linarith) (by norm_num))
    have h7 : X ≤ X * (1 + τ) := le_mul_of_one_le_right (by linarith) (by linarith)
    generalize (1 + g') ^ 3 * Q ^ 2 = Y at hXQ
    have h8 : τ * (1 + ((1 + g) * (1 + 2 * τ) * (1 + 2 * m.γ) - 1)) + ((1 + g) * (1 + 2 * τ) * (1 + 2 * m.γ) - 1) =
        (1 + g) * (1 + 2 * τ) * (1 + 2 * m.γ) * (1 + τ) - 1 := by ring
    rw [h8]
    linarith

section
variable (m : Machine) {δ τ : ℝ} (hu : m.u ≤ τ) (hκ : m.κ ≤ τ) (h1 : τ ≤ 1 / 100) {rf : Frame} {rest : List Frame}
  (h : WF (serialRoot rf rest)) {B : ℕ} (th : List (Fin B → ℝ)) (hth : th.length = (pathJoints (rf :: rest)).length)
  {I : Ideal} (hI : ∀ f ∈ serialRoot rf rest :: serialNest rest, StoredAs δ τ I f)
include hu hκ h1 h hI

theorem tee_within (b : Fin B) :
    Within (((1 + δ) ^ 2 * (1 + 54 * τ) * (1 + 3 * m.γ) ^ 3) ^ (rf :: rest).length - 1)
      (I.reach (colVal (serialRoot rf rest) th b) (serialRoot rf rest :: serialNest rest))
      (poseFl m (serialRoot rf rest) th (posOf (serialRoot rf rest) (lastName rf rest)) b)
      (I.pose (colVal (serialRoot rf rest) th b) (serialRoot rf rest :: serialNest rest)) := by
  obtain ⟨fl, hfl, hfn, -⟩ := exists_last rf rest
  rw [← hfn, poseFl_posOf m h th (serial_path rf rest) hfl]
  have := pathFl_within m hu hκ h1 (colVal (serialRoot rf rest) th b) (List.cons_ne_nil _ _) hI
  simpa [serialNest_length] using this

include hth in
theorem dof_within {k : ℕ} {f : Frame} (hk : (dofFrames rf rest)[k]? = some f) (b : Fin B) :
    ∃ p1 p2, serialRoot rf rest :: serialNest rest = p1 ++ [f] ++ p2 ∧ Moving f.joint ∧
      column (serialRoot rf rest) f.joint = k ∧
      Within (((1 + δ) ^ 2 * (1 + 54 * τ) * (1 + 3 * m.γ) ^ 3) ^ (rf :: rest).length - 1)
        (I.reach (colVal (serialRoot rf rest) th b) (serialRoot rf rest :: serialNest rest))
        (poseFl m (serialRoot rf rest) th (posOf (serialRoot rf rest) f.name) b)
        (I.pose (colVal (serialRoot rf rest) th b) (p1 ++ [f])) ∧
      vlen (posPart (I.pose (colVal (serialRoot rf rest) th b) (serialRoot rf rest :: serialNest rest)) -
          posPart (I.pose (colVal (serialRoot rf rest) th b) (p1 ++ [f]))) ≤
        I.reach (colVal (serialRoot rf rest) th b) (serialRoot rf rest :: serialNest rest) := by
  obtain ⟨hfm, mf⟩ := dofFrames_mem (List.mem_of_getElem? hk)
  have hfp : f ∈ serialRoot rf rest :: serialNest rest := serialRoot_preorder rf rest ▸ hfm
  obtain ⟨p1, p2, e⟩ := List.append_of_mem hfp
  have e' : serialRoot rf rest :: serialNest rest = p1 ++ [f] ++ p2 := by rw [e]; simp
  have hlen : (rf :: rest).length = (p1 ++ [f]).length + p2.length := by
    rw [← List.length_append, ← e']; simp [serialNest_length]
  have hp := serial_path rf rest
  have hc : column (serialRoot rf rest) f.joint = k := by
    apply (C07_columns _ h).2.2
    rw [← dofFrames_joints, List.getElem?_map, hk]; rfl
  rw [e'] at hp hI
  rw [hlen, e']
  generalize hval : colVal (serialRoot rf rest) th b = val
  have hI1 : ∀ g ∈ p1 ++ [f], StoredAs δ τ I g := fun g hg => hI g (List.mem_append_left _ hg)
  have hI2 : ∀ g ∈ p2, StoredAs δ τ I g := fun g hg => hI g (List.mem_append_right _ hg)
  have hr1 := ideal_reach_nonneg I val (p1 ++ [f])
  have hr2 := ideal_reach_nonneg I val p2
  have hδ : 0 ≤ δ := (hI1 f (by simp)).lo.g_nonneg
  have hτ : 0 ≤ τ := m.u_nonneg.trans hu
  have hγ := m.γ_nonneg
  obtain ⟨q1, -⟩ := factor_cols hδ hτ hγ h1 rfl (le_refl (0 : ℝ))
  refine ⟨p1, p2, rfl, mf, hc, ?_, ?_⟩
  · rw [poseFl_posOf m h th (isPath_prefix hp) (by simp), hval]
    refine (pathFl_within m hu hκ h1 val (by simp) hI1).mono (sub_le_sub_right ?_ 1) ?_
    · exact pow_le_pow_right₀ q1 (by omega)
    · rw [ideal_reach_append I val (p1 ++ [f])]; linarith
  · have hrg : IsRigid (I.pose val (p1 ++ [f])) := ideal_pose_rigid val hI1
    have hR : IsRot (rotPart (I.pose val (p1 ++ [f]))) := hrg.1
    have hC : IsRigid (I.pose val p2) := ideal_pose_rigid val hI2
    rw [ideal_pose_append, posPart_mul hC.2, add_sub_cancel_right, vlen_rot hR, ideal_reach_append I val (p1 ++ [f])]
    exact (ideal_pose_len val hI2).trans (by linarith)

end

/-- **C114**: whatever the arithmetic, every column of the computed Jacobian is the velocity of the end of the ideal robot when
that joint moves, up to a relative error that depends only on the arithmetic, on how precisely the robot is stored and on the
number of frames; the returned pose is that of C102. -/
theorem C114_jacobian (m : Machine) {δ τ : ℝ} (hu : m.u ≤ τ) (hκ : m.κ ≤ τ) (h1 : τ ≤ 1 / 100) (root rf fe : Frame)
    (rootName : Name) (p : List Frame) (h : WF root) (hs : StartsAt root rf rootName) (hp : IsPath rf p) (hl : p.getLast? = some fe)
    {B : ℕ} (th : List (Fin B → ℝ)) (hth : th.length = (pathJoints p).length) :
    ∃ s s' J T, SerialChain.init root fe.name rootName = .ok s ∧ SerialChain.initFl m root fe.name rootName = .ok s' ∧
      s'.jacobianTensorFl m th = .ok (J, T) ∧ J.length = th.length ∧
      ∀ I : Ideal, (∀ f ∈ s.serialFrames, StoredAs δ τ I f) → ∀ b, ∀ Q l : ℝ,
        Q = (1 + δ) ^ 2 * (1 + 54 * τ) * (1 + 3 * m.γ) ^ 3 → l = I.reach (colVal s.chain.root th b) s.serialFrames →
        Within (Q ^ p.length - 1) l (T b) (I.pose (colVal s.chain.root th b) s.serialFrames) ∧
        ∀ k col, J[k]? = some col → ∃ f ∈ s.serialFrames, Moving f.joint ∧ column s.chain.root f.joint = k ∧ ∃ v w,
          HasTwistAt (fun x => I.pose (colVal s.chain.root (setEntry th k b x) b) s.serialFrames) v w ((th.getD k fun _ => 0) b) ∧
          vlen (![col b 0, col b 1, col b 2] - v) ≤ (Q ^ (3 * p.length + 1) - 1) * colSize f l ∧
          vlen (![col b 3, col b 4, col b 5] - w) ≤ Q ^ (p.length + 1) - 1 := by
  obtain ⟨rest, rfl⟩ := isPath_head hp
  have hws := serialRoot_wf (h.sub hs.1) hp
  refine ⟨serialOf rf rest, serialFl m rf rest, _, _, serialInit_ok h hs hp hl rfl, serialInitFl_ok m h hs hp hl,
    jacobianTensorFl_ok m hws th hth, by rw [List.length_map, dofFrames_length, hth], ?_⟩
  intro I hI b Q l hQ hl'
  have hI' : ∀ f ∈ serialRoot rf rest :: serialNest rest, StoredAs δ τ I f := hI
  have hδ : 0 ≤ δ := (hI' _ (List.mem_cons_self ..)).lo.g_nonneg
  have ht := tee_within m hu hκ h1 hws th hI' b
  rw [← hQ] at ht
  subst hl'
  refine ⟨ht, fun k col hk => ?_⟩
  rw [List.getElem?_map] at hk
  obtain ⟨f, hf, rfl⟩ := Option.map_eq_some_iff.1 hk
  obtain ⟨p1, p2, e, mf, hc, hw, hd⟩ := dof_within m hu hκ h1 hws th hth hI' hf b
  rw [← hQ] at hw
  have hfI := hI' f (by rw [e]; simp)
  obtain ⟨hv, hww⟩ := jcolFl_near m hu h1 hδ hQ ht hw hd (hfI.unit mf) (hfI.ax mf) f
  have hpth := serial_path rf rest
  have htw := ideal_twist hws th (by rw [hth, pathJoints_length]) (e ▸ hpth) (fun g hg => hI' g (by rw [e]; exact hg)) mf b
    (tool := 1) isRigid_one.2
  simp only [mul_one, hc, ← e] at htw
  have hcv : colVal (serialRoot rf rest) th b f.joint = (th.getD k fun _ => 0) b := by rw [colVal, hc]
  rw [hcv] at htw
  refine ⟨f, ?_, mf, hc, _, _, htw, ?_, ?_⟩
  · show f ∈ serialRoot rf rest :: serialNest rest
    rw [e]; simp
  · refine hv.trans (le_of_eq ?_)
    rw [add_sub_cancel, ← pow_mul, pow_succ, mul_comm (rf :: rest).length 3]
    rfl
  · refine hww.trans (le_of_eq ?_)
    rw [add_sub_cancel, pow_succ]

/-- **C114**, with a tool: the same for `T_ee * tool`, where the tool is stored with the relative error `δ` and is `lt` long. -/
theorem C114_tool (m : Machine) {δ τ : ℝ} (hu : m.u ≤ τ) (hκ : m.κ ≤ τ) (h1 : τ ≤ 1 / 100) (root rf fe : Frame)
    (rootName : Name) (p : List Frame) (h : WF root) (hs : StartsAt root rf rootName) (hp : IsPath rf p) (hl : p.getLast? = some fe)
    {B : ℕ} (th : List (Fin B → ℝ)) (hth : th.length = (pathJoints p).length) (tool : List M4) (tm : Fin B → M4)
    (htool : (∃ t, tool = [t] ∧ ∀ b, tm b = t) ∨ tool = List.ofFn tm) :
    ∃ s s' J T, SerialChain.init root fe.name rootName = .ok s ∧ SerialChain.initFl m root fe.name rootName = .ok s' ∧
      s'.jacobianToolFl m th tool = .ok (J, T) ∧ J.length = th.length ∧
      ∀ I : Ideal, (∀ f ∈ s.serialFrames, StoredAs δ τ I f) → ∀ b, ∀ (t : M4) (lt Q l : ℝ), Within δ lt (tm b) t →
        Q = (1 + δ) ^ 2 * (1 + 54 * τ) * (1 + 3 * m.γ) ^ 3 → l = I.reach (colVal s.chain.root th b) s.serialFrames + lt →
        Within (Q ^ (p.length + 1) - 1) l (T b) (I.pose (colVal s.chain.root th b) s.serialFrames * t) ∧
        ∀ k col, J[k]? = some col → ∃ f ∈ s.serialFrames, Moving f.joint ∧ column s.chain.root f.joint = k ∧ ∃ v w,
          HasTwistAt (fun x => I.pose (colVal s.chain.root (setEntry th k b x) b) s.serialFrames * t) v w
            ((th.getD k fun _ => 0) b) ∧
          vlen (![col b 0, col b 1, col b 2] - v) ≤ 2 * (Q ^ (3 * p.length + 5) - 1) * colSize f l ∧
          vlen (![col b 3, col b 4, col b 5] - w) ≤ Q ^ (p.length + 1) - 1 := by
  obtain ⟨rest, rfl⟩ := isPath_head hp
  have hws := serialRoot_wf (h.sub hs.1) hp
  have hbt : broadcastTool B tool = .ok tm := by
    rcases htool with ⟨m, rfl, hm⟩ | rfl
    · unfold broadcastTool
      split
      · congr 1; funext b
        have : b.val = 0 := by have := b.isLt; simp at *; omega
        simp [this, hm b]
      · simp only; congr 1; funext b; rw [hm b]
    · unfold broadcastTool
      rw [dif_pos (by simp)]
      congr 1; funext b; simp
  refine ⟨serialOf rf rest, serialFl m rf rest, _, _, serialInit_ok h hs hp hl rfl, serialInitFl_ok m h hs hp hl,
    jacobianToolFl_ok m hws th hth hbt, by rw [List.length_map, dofFrames_length, hth], ?_⟩
  intro I hI b t lt Q l htl hQ hl'
  have hI' : ∀ f ∈ serialRoot rf rest :: serialNest rest, StoredAs δ τ I f := hI
  have hδ : 0 ≤ δ := (hI' _ (List.mem_cons_self ..)).lo.g_nonneg
  have hτ : 0 ≤ τ := m.u_nonneg.trans hu
  have ht := tee_within m hu hκ h1 hws th hI' b
  rw [← hQ] at ht
  subst hl'
  obtain ⟨q1, -, -, -, q5⟩ := factor_cols hδ hτ m.γ_nonneg h1 hQ ht.g_nonneg
  refine ⟨?_, fun k col hk => ?_⟩
  · refine (ht.mul m htl).mono ?_ le_rfl
    have : (0 : ℝ) ≤ Q ^ (rf :: rest).length := by positivity
    have := mul_le_mul_of_nonneg_left q5 this
    rw [pow_succ]
    nlinarith
  rw [List.getElem?_map] at hk
  obtain ⟨f, hf, rfl⟩ := Option.map_eq_some_iff.1 hk
  obtain ⟨p1, p2, e, mf, hc, hw, hd⟩ := dof_within m hu hκ h1 hws th hth hI' hf b
  rw [← hQ] at hw
  have hfI := hI' f (by rw [e]; simp)
  obtain ⟨-, hv, hww⟩ := jcolToolFl_near m hu h1 hδ hQ ht hw htl (g' := Q ^ ((rf :: rest).length + 1) - 1)
    (by rw [add_sub_cancel, add_sub_cancel, pow_succ]) hd (hfI.unit mf) (hfI.ax mf) f
  have hpth := serial_path rf rest
  have htw := ideal_twist hws th (by rw [hth, pathJoints_length]) (e ▸ hpth) (fun g hg => hI' g (by rw [e]; exact hg)) mf b
    (tool := t) htl.rigid.2
  simp only [hc, ← e] at htw
  have hcv : colVal (serialRoot rf rest) th b f.joint = (th.getD k fun _ => 0) b := by rw [colVal, hc]
  rw [hcv] at htw
  refine ⟨f, ?_, mf, hc, _, _, htw, ?_, ?_⟩
  · show f ∈ serialRoot rf rest :: serialNest rest
    rw [e]; simp
  · refine hv.trans (le_of_eq ?_)
    rw [add_sub_cancel, ← pow_mul, ← pow_add, show ((rf :: rest).length + 1) * 3 + 2 = 3 * (rf :: rest).length + 5 by ring]
    rfl
  · refine hww.trans (le_of_eq ?_)
    rw [add_sub_cancel, pow_succ]

theorem binary_u (q : ℕ) (hq : 1 ≤ q) : (binary q hq).u = 1 / 2 ^ q ∧ (binary q hq).κ = 1 / 2 ^ q := by
  have hU : (binary q hq).u = 1 / 2 ^ q := by
    show (2 : ℝ) ^ (-(q : ℤ)) = _
    rw [zpow_neg, zpow_natCast, one_div]
  exact ⟨hU, hU⟩

theorem binary_factor (q : ℕ) (hq : 10 ≤ q) : (1 : ℝ) / 2 ^ q ≤ 1 / 100 ∧
    ∀ N : ℕ, (N : ℝ) * 91 ≤ 2 ^ q →
      ((1 + 0) ^ 2 * (1 + 54 * (1 / 2 ^ q)) * (1 + 3 * (binary q (by omega)).γ) ^ 3) ^ N - 1 ≤ 182 * N / (2 : ℝ) ^ q := by
  set m := binary q (by omega) with hm
  have hU : m.u = 1 / 2 ^ q := (binary_u q (by omega)).1
  have h0 : (0 : ℝ) ≤ 1 / 2 ^ q := by positivity
  have h1 : (1 : ℝ) / 2 ^ q ≤ 1 / 1024 := by
    rw [show (1024 : ℝ) = 2 ^ 10 by norm_num]
    exact one_div_le_one_div_of_le (by positivity) (pow_le_pow_right₀ (by norm_num) hq)
  have hγ : m.γ = (1 + 1 / 2 ^ q) ^ 4 - 1 := by
    rw [← hU]; rfl
  have hγ' : m.γ ≤ 4.1 * (1 / 2 ^ q) := by
    rw [hγ]
    generalize (1 : ℝ) / 2 ^ q = u at h0 h1
    have : u * u ≤ u * (1 / 1024) := mul_le_mul_of_nonneg_left h1 h0
    have h3 : u ^ 3 ≤ u * u := by nlinarith [mul_nonneg h0 h0]
    have h4 : u ^ 4 ≤ u * u := by nlinarith [mul_nonneg h0 h0, pow_nonneg h0 3]
    nlinarith
  refine ⟨h1.trans (by norm_num), fun N hn => ?_⟩
  have hx : 2 * 0 + 54 * (1 / 2 ^ q) + 9 * m.γ ≤ 91 * (1 / (2 : ℝ) ^ q) := by linarith
  refine (pow_sub_one_le (x := 91 * (1 / 2 ^ q)) (by positivity) (by have := m.γ_nonneg; positivity)
    ((factor_le_exp le_rfl h0 m.γ_nonneg).trans (Real.exp_le_exp.2 hx)) ?_).trans (le_of_eq (by ring))
  rw [← mul_assoc, mul_one_div, div_le_one (by positivity)]
  exact hn

/-- **C114**: with `q` binary digits (24 for `float32`, 53 for `float64`) and exactly representable data, the computed Jacobian
of a chain of `n` frames differs from the exact one (`C17`) by at most `182 (3 n + 1) / 2 ^ q` times the length of the arm in
the linear part of revolute columns, by at most `182 (3 n + 1) / 2 ^ q` in the linear part of prismatic columns and by at most
`182 (n + 1) / 2 ^ q` in angular parts. -/
theorem C114_precision (q : ℕ) (hq : 10 ≤ q) (root rf fe : Frame) (rootName : Name) (p : List Frame) (h : WF root)
    (hr : RigidTree root) (hs : StartsAt root rf rootName) (hp : IsPath rf p) (hl : p.getLast? = some fe)
    {B : ℕ} (th : List (Fin B → ℝ)) (hth : th.length = (pathJoints p).length) (hn : (3 * p.length + 1 : ℝ) * 91 ≤ 2 ^ q) :
    ∃ s s' J T J' T', SerialChain.init root fe.name rootName = .ok s ∧
      SerialChain.initFl (binary q (by omega)) root fe.name rootName = .ok s' ∧
      s.jacobian (.tensor B th) = .ok ⟨B, J, T⟩ ∧ s'.jacobianTensorFl (binary q (by omega)) th = .ok (J', T') ∧
      J.length = th.length ∧ J'.length = th.length ∧
      ∀ k col col', J[k]? = some col → J'[k]? = some col' → ∃ f ∈ s.serialFrames, Moving f.joint ∧
        column s.chain.root f.joint = k ∧ ∀ b,
          vlen (![col' b 0, col' b 1, col' b 2] - ![col b 0, col b 1, col b 2]) ≤
            182 * (3 * p.length + 1) / 2 ^ q * colSize f (asStored.reach (colVal s.chain.root th b) s.serialFrames) ∧
          vlen (![col' b 3, col' b 4, col' b 5] - ![col b 3, col b 4, col b 5]) ≤ 182 * (p.length + 1) / 2 ^ q := by
  obtain ⟨rest, rfl⟩ := isPath_head hp
  have hws := serialRoot_wf (h.sub hs.1) hp
  have hrs := serialRoot_rigid (hr.sub hs.1) hp
  obtain ⟨hU, hK⟩ := binary_u q (by omega)
  obtain ⟨h1, key⟩ := binary_factor q hq
  set m := binary q (by omega) with hm
  have h0 : (0 : ℝ) ≤ 1 / 2 ^ q := by positivity
  have hI : ∀ f ∈ serialRoot rf rest :: serialNest rest, StoredAs 0 (1 / 2 ^ q) asStored f := by
    intro f hf
    exact asStored_storedAs hrs h0 f (serialRoot_preorder rf rest ▸ hf)
  refine ⟨serialOf rf rest, serialFl m rf rest, jacCols rf rest th,
    poseAt (serialRoot rf rest) th (posOf (serialRoot rf rest) (lastName rf rest)), _, _, serialInit_ok h hs hp hl rfl,
    serialInitFl_ok m h hs hp hl, ?_, jacobianTensorFl_ok m hws th hth, by rw [jacCols, List.length_map, dofFrames_length, hth],
    by rw [List.length_map, dofFrames_length, hth], ?_⟩
  · unfold SerialChain.jacobian
    simp only [jacobianTensor_ok hws th hth, ok_bind]
    rfl
  intro k col col' hk hk'
  rw [jacCols, List.getElem?_map] at hk
  obtain ⟨f, hf, rfl⟩ := Option.map_eq_some_iff.1 hk
  rw [List.getElem?_map, hf, Option.map_some, Option.some.injEq] at hk'
  subst hk'
  have hfm := (dofFrames_mem (List.mem_of_getElem? hf))
  have hfs : f ∈ serialRoot rf rest :: serialNest rest := serialRoot_preorder rf rest ▸ hfm.1
  refine ⟨f, hfs, hfm.2, ?_, fun b => ?_⟩
  · show column (serialRoot rf rest) f.joint = k
    apply (C07_columns _ hws).2.2
    rw [← dofFrames_joints, List.getElem?_map, hf]; rfl
  have ht := tee_within m hU.le hK.le h1 hws th hI b
  obtain ⟨p1, p2, e, mf, hc, hw, hd⟩ := dof_within m hU.le hK.le h1 hws th hth hI hf b
  have hfI := hI f (by rw [e]; simp)
  obtain ⟨hv, hww⟩ := jcolFl_near m hU.le h1 le_rfl rfl ht hw hd (hfI.unit mf) (hfI.ax mf) f
  obtain ⟨fl, hfl, hfn, -⟩ := exists_last rf rest
  have hpth := serial_path rf rest
  have e1 : poseAt (serialRoot rf rest) th (posOf (serialRoot rf rest) (lastName rf rest)) b =
      asStored.pose (colVal (serialRoot rf rest) th b) (serialRoot rf rest :: serialNest rest) := by
    rw [asStored_pose, ← hfn]; exact hws.pose_path th hpth hfl b
  have e2 : poseAt (serialRoot rf rest) th (posOf (serialRoot rf rest) f.name) b =
      asStored.pose (colVal (serialRoot rf rest) th b) (p1 ++ [f]) := by
    rw [asStored_pose]; exact hws.pose_path th (isPath_prefix (e ▸ hpth)) (by simp) b
  have e3 : ∀ v : V3, ![v 0, v 1, v 2] = v := fun v => by funext i; fin_cases i <;> rfl
  have k1 := key (3 * (rf :: rest).length + 1) (by push_cast at hn ⊢; linarith)
  have k2 := key ((rf :: rest).length + 1) (by push_cast at hn ⊢; linarith)
  have c1 : ![jcol (rotPart (poseAt (serialRoot rf rest) th (posOf (serialRoot rf rest) f.name) b) *ᵥ f.joint.axis)
        (posPart (poseAt (serialRoot rf rest) th (posOf (serialRoot rf rest) (lastName rf rest)) b) -
         posPart (poseAt (serialRoot rf rest) th (posOf (serialRoot rf rest) f.name) b)) (f.joint.jtype = .revolute) 0,
      jcol (rotPart (poseAt (serialRoot rf rest) th (posOf (serialRoot rf rest) f.name) b) *ᵥ f.joint.axis)
        (posPart (poseAt (serialRoot rf rest) th (posOf (serialRoot rf rest) (lastName rf rest)) b) -
         posPart (poseAt (serialRoot rf rest) th (posOf (serialRoot rf rest) f.name) b)) (f.joint.jtype = .revolute) 1,
      jcol (rotPart (poseAt (serialRoot rf rest) th (posOf (serialRoot rf rest) f.name) b) *ᵥ f.joint.axis)
        (posPart (poseAt (serialRoot rf rest) th (posOf (serialRoot rf rest) (lastName rf rest)) b) -
         posPart (poseAt (serialRoot rf rest) th (posOf (serialRoot rf rest) f.name) b)) (f.joint.jtype = .revolute) 2] =
      if f.joint.jtype = .revolute then cross (rotPart (asStored.pose (colVal (serialRoot rf rest) th b) (p1 ++ [f])) *ᵥ asStored.ax f)
        (posPart (asStored.pose (colVal (serialRoot rf rest) th b) (serialRoot rf rest :: serialNest rest)) -
          posPart (asStored.pose (colVal (serialRoot rf rest) th b) (p1 ++ [f])))
      else rotPart (asStored.pose (colVal (serialRoot rf rest) th b) (p1 ++ [f])) *ᵥ asStored.ax f := by
    rw [e1, e2]
    exact e3 _
  have c2 : ![jcol (rotPart (poseAt (serialRoot rf rest) th (posOf (serialRoot rf rest) f.name) b) *ᵥ f.joint.axis)
        (posPart (poseAt (serialRoot rf rest) th (posOf (serialRoot rf rest) (lastName rf rest)) b) -
         posPart (poseAt (serialRoot rf rest) th (posOf (serialRoot rf rest) f.name) b)) (f.joint.jtype = .revolute) 3,
      jcol (rotPart (poseAt (serialRoot rf rest) th (posOf (serialRoot rf rest) f.name) b) *ᵥ f.joint.axis)
        (posPart (poseAt (serialRoot rf rest) th (posOf (serialRoot rf rest) (lastName rf rest)) b) -
         posPart (poseAt (serialRoot rf rest) th (posOf (serialRoot rf rest) f.name) b)) (f.joint.jtype = .revolute) 4,
      jcol (rotPart (poseAt (serialRoot rf rest) th (posOf (serialRoot rf rest) f.name) b) *ᵥ f.joint.axis)
        (posPart (poseAt (serialRoot rf rest) th (posOf (serialRoot rf rest) (lastName rf rest)) b) -
         posPart (poseAt (serialRoot rf rest) th (posOf (serialRoot rf rest) f.name) b)) (f.joint.jtype = .revolute) 5] =
      if f.joint.jtype = .revolute then rotPart (asStored.pose (colVal (serialRoot rf rest) th b) (p1 ++ [f])) *ᵥ asStored.ax f
      else 0 := by
    rw [e1, e2]
    exact e3 _
  have hl0 : 0 ≤ colSize f (asStored.reach (colVal (serialRoot rf rest) th b) (serialRoot rf rest :: serialNest rest)) := by
    unfold colSize
    split
    · exact ideal_reach_nonneg _ _ _
    · exact zero_le_one
  refine ⟨?_, ?_⟩
  · simp only [c1]
    refine hv.trans (mul_le_mul_of_nonneg_right ?_ hl0)
    rw [add_sub_cancel, ← pow_mul, ← pow_succ, mul_comm (rf :: rest).length 3]
    refine k1.trans (le_of_eq ?_)
    push_cast; ring
  · simp only [c2]
    refine hww.trans ?_
    rw [add_sub_cancel, ← pow_succ]
    refine k2.trans (le_of_eq ?_)
    push_cast; ring

/-- the two-joint arm of `exTree` in single precision, without and with a tool -/
example : ∃ (s s' : SerialChain) (J : List (Fin 1 → Fin 6 → ℝ)) (T : Fin 1 → M4) (J' : List (Fin 1 → Fin 6 → ℝ)) (T' : Fin 1 → M4)
    (fe : Frame), SerialChain.init exTree fe.name [] = .ok s ∧
    SerialChain.initFl (binary 24 (by norm_num)) exTree fe.name [] = .ok s' ∧
    s.jacobian (.tensor 1 [fun _ => 1, fun _ => 3]) = .ok ⟨1, J, T⟩ ∧
    s'.jacobianTensorFl (binary 24 (by norm_num)) [fun _ => 1, fun _ => 3] = .ok (J', T') ∧
    ∀ col col', J[1]? = some col → J'[1]? = some col' →
      vlen (![col' 0 3, col' 0 4, col' 0 5] - ![col 0 3, col 0 4, col 0 5]) ≤ 182 * 4 / 2 ^ 24 := by
  obtain ⟨s, s', J, T, J', T', h1, h2, h3, h4, -, -, h7⟩ := C114_precision 24 (by norm_num) exTree exTree
    exTree.children[0].children[0] [] [exTree, exTree.children[0], exTree.children[0].children[0]] exTree_wf exTree_rigid
    ⟨by rw [preorder_eq]; simp, .inl ⟨rfl, rfl⟩⟩
    (IsPath.snoc [exTree] _ _ (IsPath.snoc [] _ _ IsPath.single (by simp)) (by simp)) rfl (B := 1)
    [fun _ => 1, fun _ => 3] (by simp [pathJoints, exTree, Frame.children, Frame.joint, Moving]) (by norm_num)
  refine ⟨s, s', J, T, J', T', _, h1, h2, h3, h4, fun col col' hc hc' => ?_⟩
  obtain ⟨f, -, -, -, hb⟩ := h7 1 col col' hc hc'
  refine (hb 0).2.trans (le_of_eq ?_)
  norm_num

example : ∃ (s s' : SerialChain) (J : List (Fin 1 → Fin 6 → ℝ)) (T : Fin 1 → M4) (fe : Frame),
    SerialChain.init exTree fe.name [] = .ok s ∧ SerialChain.initFl (binary 24 (by norm_num)) exTree fe.name [] = .ok s' ∧
    s'.jacobianToolFl (binary 24 (by norm_num)) [fun _ => 1, fun _ => 3] [mkHom 1 ![0, 0, 1 / 10]] = .ok (J, T) ∧ J.length = 2 := by
  obtain ⟨s, s', J, T, h1, h2, h3, h4, -⟩ := C114_tool (binary 24 (by norm_num)) (δ := 0) (τ := 1 / 2 ^ 24)
    (binary_u 24 (by norm_num)).1.le (binary_u 24 (by norm_num)).2.le (by norm_num) exTree exTree
    exTree.children[0].children[0] [] [exTree, exTree.children[0], exTree.children[0].children[0]] exTree_wf
    ⟨by rw [preorder_eq]; simp, .inl ⟨rfl, rfl⟩⟩
    (IsPath.snoc [exTree] _ _ (IsPath.snoc [] _ _ IsPath.single (by simp)) (by simp)) rfl (B := 1)
    [fun _ => 1, fun _ => 3] (by simp [pathJoints, exTree, Frame.children, Frame.joint, Moving])
    [mkHom 1 ![0, 0, 1 / 10]] (fun _ => mkHom 1 ![0, 0, 1 / 10]) (.inl ⟨_, rfl, fun _ => rfl⟩)
  exact ⟨s, s', J, T, _, h1, h2, h3, h4⟩

end PK
