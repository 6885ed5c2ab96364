import Verif.Lemmas.GradRound
import Verif.Spec.FloatGrad
import Verif.Props.FloatJac
import Verif.Props.Gradient
import Verif.Props.FloatLoad

/-!
# C137: rounding errors of the analytical gradient
-/

namespace PK
open Spec Matrix

theorem ideal_pose_const {sr f : Frame} (h : WF sr) (I : Ideal) {B : ℕ} (th : List (Fin B → ℝ))
    (hth : th.length = (movingJoints sr).length) (hf : f ∈ preorder sr) (mf : Moving f.joint) (b b' : Fin B) {q : List Frame}
    (hq : ∀ g ∈ q, g ∈ preorder sr) (hfq : f ∉ q ∨ b' ≠ b) (x : ℝ) :
    I.pose (colVal sr (setEntry th (column sr f.joint) b x) b') q = I.pose (colVal sr th b') q := by
  have hlt : column sr f.joint < th.length := by
    obtain ⟨j, e, he, rfl⟩ := exists_pos hf
    rw [hth]; exact column_lt (List.mem_of_getElem? he) mf
  unfold Ideal.pose
  congr 1
  refine List.map_congr_left fun g hg => ?_
  congr 1
  by_cases mg : Moving g.joint
  · rw [colVal_setEntry th _ hlt, if_neg]
    rintro ⟨hc, hb⟩
    rcases hfq with h1 | h1
    · exact h1 (h.column_inj (hq g hg) hf mg mf hc ▸ hg)
    · exact h1 hb
  · rw [ideal_motion_eq, ideal_motion_eq]
    exact motion_fixed (j := idealJoint I g) mg _ _

/-- two paths to the same place of the tree -/
theorem paths_eq {root : Frame} {pi : List ℕ} {p q : List Frame} (hp : pi.map (frameAt root) = p.map some)
    (hq : pi.map (frameAt root) = q.map some) : p = q :=
  List.map_injective_iff.2 (Option.some_injective _) (hp.symm.trans hq)

theorem ideal_reach_prefix_le (I : Ideal) (val : Joint → ℝ) (p q : List Frame) : I.reach val p ≤ I.reach val (p ++ q) := by
  rw [ideal_reach_append]
  have := ideal_reach_nonneg I val q
  linarith

/-- **C137**: whatever the arithmetic, every entry of the gradient that the analytical backward pass returns is the derivative of the
loss of the ideal robot (the sum of the entries of all its exact poses, weighted by the upstream gradient) up to a factor times what
the upstream gradient of the frames that the joint moves can contribute. -/
theorem C137_rounding (m : SumMachine) {δ τ : ℝ} (hu : m.u ≤ τ) (hκ : m.κ ≤ τ) (h1 : τ ≤ 1 / 100) (root : Frame) (h : WF root)
    {n : ℕ} (hn : ∀ p, IsPath root p → p.length ≤ n) {B : ℕ} (th : List (Fin B → ℝ)) (hth : th.length = (movingJoints root).length)
    (I : Ideal) (hI : ∀ f ∈ preorder root, StoredAs δ τ I f) (G : List (Fin B → M4)) (hG : G.length = (preorder root).length) :
    ∃ T grad paths, (Chain.initFl m.toMachine root).fkTensorFl m.toMachine th = .ok T ∧
      (Chain.initFl m.toMachine root).backwardFl m T G = .ok grad ∧ grad.length = (movingJoints root).length ∧
      ListsPaths root (Chain.init root).idxToFrame.get? paths ∧
      ∀ f ∈ preorder root, Moving f.joint → ∀ b : Fin B, ∃ d,
        HasDerivAt (fun x => weighted G (paths.map fun p b' => I.pose (colVal root (setEntry th (column root f.joint) b x) b') p)) d
          (colVal root th b f.joint) ∧
        |(grad.getD (column root f.joint) fun _ => 0) b - d| ≤
          (((1 + δ) ^ 2 * (1 + 54 * τ) * (1 + 3 * m.γ) ^ 3) ^ (2 * n) * (1 + 2 * m.γ) ^ 3 * (1 + m.u) ^ 3 *
            (1 + m.Γ (preorder root).length) * (1 + 2 * τ) - 1) *
          pullSum I (colVal root th b) f (G.map fun g => g b) paths := by
  classical
  have hN : (visit root).length = (preorder root).length := by simpa using (visit_perm root).length_eq
  rw [← hN] at hG
  set N := (visit root).length with hNdef
  have h0 : 0 ≤ τ := m.u_nonneg.trans hu
  have hγ := m.γ_nonneg
  have hfk : (Chain.initFl m.toMachine root).fkTensorFl m.toMachine th = .ok ((List.range N).map (poseFl m.toMachine root th)) := by
    apply fkTensorFl_ok m.toMachine h.joints_nodup
    · intro hne; rw [hth]; exact List.length_pos_iff.2 hne
    · simp [broadcastCols, hth]
  have hdlen : (Chain.init root).dofFrameIndices.length = (movingJoints root).length := by
    rw [← init_nJoints root]; exact dofFrameIndicesOf_length _ _ _
  have hdof : ∀ i ∈ (Chain.init root).dofFrameIndices,
      tensorAt ((List.range N).map (poseFl m.toMachine root th)) i = .ok (poseFl m.toMachine root th i) := by
    intro i hi
    obtain ⟨k, hk, hki⟩ := List.mem_iff_getElem.1 hi
    obtain ⟨f, hf, mf, hc, -⟩ := column_frame h (hdlen ▸ hk)
    obtain ⟨jk, e, he, hef⟩ := exists_pos hf
    have := init_dofFrameIndices h mf he hef
    rw [hc, List.getElem?_eq_getElem hk, hki, Option.some.injEq] at this
    subst this
    have hlt := (List.getElem?_eq_some_iff.1 he).1
    simp [tensorAt, hNdef, hlt]
  -- the path to every frame
  have hP : ∀ l, ∃ p : List Frame, ∀ hl : l < N, ∃ pi, (ancestors root)[l]? = some pi ∧ IsPath root p ∧
      pi.map (frameAt root) = p.map some ∧ p.getLast? = some ((visit root)[l]).1 := by
    intro l
    by_cases hl : l < N
    · obtain ⟨pi, p, g1, g2, g3, g4, -⟩ := ancestors_isPath root l _ (List.getElem?_eq_getElem hl)
      exact ⟨p, fun _ => ⟨pi, g1, g2, g3, g4⟩⟩
    · exact ⟨[], fun hc => absurd hc hl⟩
  choose P hP using hP
  obtain ⟨grad, hgrad⟩ : ∃ grad, grad = List.zipWith (fun (ta : (Fin B → M4) × V3) (rm : Bool × List ℝ) => fun b =>
    let z := axisFl m.toMachine (ta.1 b) ta.2
    let o := posPart (ta.1 b)
    let sumTau := maskSumFl m rm.2 (List.zipWith (fun t g => tauLinkFl m.toMachine (t b) (g b)) ((List.range N).map (poseFl m.toMachine root th)) G)
    let sumGradT := maskSumFl m rm.2 (G.map fun g => posPart (g b))
    let sumCross := maskSumFl m rm.2 (List.zipWith (fun t g => crossFl m.toMachine (posPart (t b)) (posPart (g b))) ((List.range N).map (poseFl m.toMachine root th)) G)
    let co := crossFl m.toMachine o sumGradT
    if rm.1 then m.dot z (fun i => m.rnd (m.rnd (sumTau i + sumCross i) - co i)) else m.dot z sumGradT)
    (List.zip ((Chain.init root).dofFrameIndices.map (poseFl m.toMachine root th)) (Chain.init root).axes)
    (List.zip (Chain.init root).dofIsRevolute (Chain.init root).dofAncestorMask) := ⟨_, rfl⟩
  have hmlen : (Chain.init root).dofAncestorMask.length = (movingJoints root).length := by
    rw [← hdlen]; exact List.length_map _
  have hrlen : (Chain.init root).dofIsRevolute.length = (movingJoints root).length := by
    rw [← hdlen]; exact List.length_map _
  refine ⟨_, grad, (List.range N).map P, hfk, ?_, ?_, ⟨by simp [hN], ?_⟩, ?_⟩
  · show fkBackwardFl m _ G (Chain.init root).dofFrameIndices (Chain.init root).dofAncestorMask (Chain.init root).dofIsRevolute
      (Chain.init root).axes = _
    unfold fkBackwardFl
    rw [mapM_ok _ _ _ hdof, hgrad]
    rfl
  · rw [hgrad]; simp [hdlen, hmlen, hrlen, init_axes_length]
  · intro l p hlp
    rw [List.getElem?_map, Option.map_eq_some_iff] at hlp
    obtain ⟨l', hl', rfl⟩ := hlp
    obtain ⟨hl, rfl⟩ : l < N ∧ l' = l := by
      rw [List.getElem?_eq_some_iff] at hl'
      obtain ⟨hl, e⟩ := hl'
      simp at hl e
      exact ⟨hl, e.symm⟩
    obtain ⟨pi, g1, g2, g3, g4⟩ := hP l' hl
    exact ⟨g2, by rw [g4, h.idxToFrame (List.getElem?_eq_getElem hl)]; rfl⟩
  intro f hf mf b
  obtain ⟨jk, e, he, hef⟩ := exists_pos hf
  have hjk : jk < N := (List.getElem?_eq_some_iff.1 he).1
  set k := column root f.joint with hc
  have hdk := init_dofFrameIndices h mf he hef
  have hax := init_axes_get h.joints_nodup (List.mem_of_getElem? he) (hef ▸ mf)
  rw [hef] at hax
  rw [← hc] at hdk hax
  have hmask : (Chain.init root).dofAncestorMask[k]? = some ((ancestors root).map fun anc => if jk ∈ anc then (1 : ℝ) else 0) := by
    show ((Chain.init root).dofFrameIndices.map fun fj => (ancestors root).map fun anc => if fj ∈ anc then (1 : ℝ) else 0)[k]? = _
    rw [List.getElem?_map, hdk]; rfl
  have hrev : (Chain.init root).dofIsRevolute[k]? = some (decide (f.joint.jtype = .revolute)) := by
    show ((Chain.init root).dofFrameIndices.map fun fj => (Chain.init root).jointTypeIndices[fj]? == some 1)[k]? = _
    rw [List.getElem?_map, hdk, init_types]
    simp only [Option.map_some, List.getElem?_map, he, hef]
    cases f.joint.jtype <;> rfl
  -- the frames below the joint
  have hmem : ∀ l < N, (jk ∈ ((ancestors root)[l]?).getD [] ↔ f ∈ P l) := by
    intro l hl
    obtain ⟨pi, g1, g2, g3, g4⟩ := hP l hl
    rw [g1, Option.getD_some]
    exact mem_path_iff h he hef g3
  set r : ℕ → ℝ := fun l => if f ∈ P l then 1 else 0 with hr
  have hrow : ((ancestors root).map fun anc => if jk ∈ anc then (1 : ℝ) else 0) = (List.range N).map r := by
    apply List.ext_getElem
    · simp [ancestors_length, hNdef]
    · intro i i1 i2
      simp at i1 i2
      have := hmem i i2
      rw [List.getElem?_eq_getElem i1, Option.getD_some] at this
      simp only [List.getElem_map, List.getElem_range, hr, this]
  -- poses
  have hw : ∀ l < N, Within (((1 + δ) ^ 2 * (1 + 54 * τ) * (1 + 3 * m.γ) ^ 3) ^ n - 1) (I.reach (colVal root th b) (P l))
      (poseFl m.toMachine root th l b) (I.pose (colVal root th b) (P l)) := by
    intro l hl
    obtain ⟨pi, g1, g2, g3, g4⟩ := hP l hl
    rw [poseFl_path m.toMachine root th g1 g3 b]
    have hδ : 0 ≤ δ := (hI f hf).lo.g_nonneg
    refine (pathFl_within m.toMachine hu hκ h1 _ (fun hc => by rw [hc] at g4; simp at g4) fun g hg => hI g (isPath_mem g2 g hg)).mono
      (sub_le_sub_right (pow_le_pow_right₀ ?_ (hn _ g2)) 1) le_rfl
    have a1 : (1 : ℝ) ≤ (1 + δ) ^ 2 := one_le_pow₀ (by linarith)
    have a2 : (1 : ℝ) ≤ (1 + 3 * m.γ) ^ 3 := one_le_pow₀ (by linarith)
    exact one_le_mul_of_one_le_of_one_le (one_le_mul_of_one_le_of_one_le a1 (by linarith)) a2
  obtain ⟨hun, hax'⟩ := (⟨(hI f hf).unit mf, (hI f hf).ax mf⟩ : _ ∧ _)
  have key := gradFl_near m (τ := τ) N r (fun l => by simp only [hr]; split <;> norm_num) (fun l => G.getD l 0 b) hw (hw jk hjk) hun hax'
  obtain ⟨kr, kp⟩ := key
  -- the value computed by the code
  have hz1 : ∀ (F : (Fin B → M4) → (Fin B → M4) → V3),
      List.zipWith F ((List.range N).map (poseFl m.toMachine root th)) G =
      (List.range N).map fun l => F (poseFl m.toMachine root th l) (G.getD l 0) := by
    intro F
    rw [List.zipWith_comm, ← hG, zipWith_range _ 0]
  have hz2 : G.map (fun g => posPart (g b)) = (List.range N).map fun l => posPart (G.getD l 0 b) := by
    rw [← hG]
    apply List.ext_getElem
    · simp
    · intro i h1 h2
      simp at h1
      simp [List.getD, List.getElem?_eq_getElem h1]
  have hval : (grad.getD k fun _ => 0) b = if f.joint.jtype = .revolute then
      m.dot (axisFl m.toMachine (poseFl m.toMachine root th jk b) f.joint.axis) fun i => m.rnd (m.rnd
        (maskSumFl m ((List.range N).map r) ((List.range N).map fun l =>
            tauLinkFl m.toMachine (poseFl m.toMachine root th l b) (G.getD l 0 b)) i +
          maskSumFl m ((List.range N).map r) ((List.range N).map fun l =>
            crossFl m.toMachine (posPart (poseFl m.toMachine root th l b)) (posPart (G.getD l 0 b))) i) -
        crossFl m.toMachine (posPart (poseFl m.toMachine root th jk b))
          (maskSumFl m ((List.range N).map r) ((List.range N).map fun l => posPart (G.getD l 0 b))) i)
      else m.dot (axisFl m.toMachine (poseFl m.toMachine root th jk b) f.joint.axis)
          (maskSumFl m ((List.range N).map r) ((List.range N).map fun l => posPart (G.getD l 0 b))) := by
    rw [hgrad]
    simp only [List.getD, List.getElem?_zipWith, List.zip, List.getElem?_map, hdk, hax, hmask, hrev, Option.map_some,
      Option.getD_some]
    simp only [hz1, hz2, hrow, decide_eq_true_eq]
    rfl
  -- the path to the joint's frame is the beginning of the paths to the frames below it
  have hsplit : ∀ l < N, f ∈ P l → ∃ p1 p2, P l = p1 ++ [f] ++ p2 ∧ P jk = p1 ++ [f] := by
    intro l hl hfp
    obtain ⟨pi, g1, g2, g3, g4⟩ := hP l hl
    obtain ⟨p1, p2, hpp⟩ := List.append_of_mem hfp
    have hpp' : P l = p1 ++ [f] ++ p2 := by rw [hpp]; simp
    rw [hpp'] at g2
    obtain ⟨j', e', pi', a1, a2, a3, a4⟩ := isPath_ancestors root (isPath_prefix g2)
    have hjj : j' = jk := by
      refine h.pos_unique a1 he ?_
      have : e'.1 = f := by simpa using a4.symm
      rw [hef, this]
    subst hjj
    obtain ⟨pi2, c1, c2, c3, c4⟩ := hP j' hjk
    rw [a2] at c1
    obtain rfl := Option.some.inj c1
    exact ⟨p1, p2, hpp', paths_eq c3 a3⟩
  have hpre : ∀ l < N, f ∈ P l → I.reach (colVal root th b) (P jk) ≤ I.reach (colVal root th b) (P l) := by
    intro l hl hfl
    obtain ⟨p1, p2, e1, e2⟩ := hsplit l hl hfl
    rw [e1, e2]
    exact ideal_reach_prefix_le I _ _ _
  -- the derivative
  set z := rotPart (I.pose (colVal root th b) (P jk)) *ᵥ I.ax f with hz
  set x0 := colVal root th b f.joint with hx0
  have hder : ∀ l < N, ∀ b' i j, HasDerivAt (fun y => I.pose (colVal root (setEntry th k b y) b') (P l) i j)
      ((if f ∈ P l ∧ b' = b then
        (if f.joint.jtype = .revolute then
          mkTwist (hat z * rotPart (I.pose (colVal root th b) (P l)))
            (cross z (posPart (I.pose (colVal root th b) (P l)) - posPart (I.pose (colVal root th b) (P jk))))
         else mkTwist 0 z) else 0 : M4) i j) x0 := by
    intro l hl b' i j
    obtain ⟨pi, g1, g2, g3, g4⟩ := hP l hl
    by_cases hin : f ∈ P l ∧ b' = b
    · rw [if_pos hin]
      obtain ⟨hfp, rfl⟩ := hin
      obtain ⟨p1, p2, hpp', hpk⟩ := hsplit l hl hfp
      rw [hpp'] at g2
      have ht := ideal_twist h th hth g2 (fun g hg => hI g (isPath_mem g2 g hg)) mf b' (isRigid_one).2 (I := I)
      simp only [mul_one, ← hpp'] at ht
      simp only [← hpk, ← hc, ← hz, ← hx0] at ht
      obtain ⟨t1, t2⟩ := ht
      have hself : setEntry th k b' x0 = th := setEntry_self th _ b'
      have haff : ∀ y, IsAffine (I.pose (colVal root (setEntry th k b' y) b') (P l)) := fun y => by
        rw [hpp']
        exact (ideal_pose_rigid _ fun g hg => hI g (isPath_mem g2 g hg)).2
      simp only [hself] at t2
      have hlast : ∀ j : Fin 4, HasDerivAt (fun y => I.pose (colVal root (setEntry th k b' y) b') (P l) 3 j) 0 x0 := fun j => by
        have : (fun y => I.pose (colVal root (setEntry th k b' y) b') (P l) 3 j) = fun _ => (![0, 0, 0, 1] : Fin 4 → ℝ) j := by
          funext y; rw [show I.pose (colVal root (setEntry th k b' y) b') (P l) 3 = ![0, 0, 0, 1] from haff y]
        rw [this]; exact hasDerivAt_const _ _
      have hR : (Matrix.of fun r s : Fin 3 => I.pose (colVal root th b') (P l) r.castSucc s.castSucc) =
          rotPart (I.pose (colVal root th b') (P l)) := rfl
      rw [hR] at t2
      have h00 : hat 0 = 0 := by rw [hat_eq]; ext i j; fin_cases i <;> fin_cases j <;> simp
      by_cases hrv : f.joint.jtype = .revolute
      · simp only [hrv, if_true] at t1 t2 ⊢
        refine Fin.lastCases ?_ (fun i' => ?_) i
        · refine (hlast j).congr_deriv ?_
          fin_cases j <;> simp [mkTwist]
        · refine Fin.lastCases ?_ (fun j' => ?_) j
          · refine (t1 i').congr_deriv ?_
            fin_cases i' <;> simp [mkTwist]
          · refine (t2 i' j').congr_deriv ?_
            fin_cases i' <;> fin_cases j' <;> rfl
      · simp only [hrv, if_false, h00, Matrix.zero_mul] at t1 t2 ⊢
        refine Fin.lastCases ?_ (fun i' => ?_) i
        · refine (hlast j).congr_deriv ?_
          fin_cases j <;> simp [mkTwist]
        · refine Fin.lastCases ?_ (fun j' => ?_) j
          · refine (t1 i').congr_deriv ?_
            fin_cases i' <;> simp [mkTwist]
          · refine (t2 i' j').congr_deriv ?_
            fin_cases i' <;> fin_cases j' <;> rfl
    · rw [if_neg hin]
      have hcst : ∀ y, I.pose (colVal root (setEntry th k b y) b') (P l) = I.pose (colVal root th b') (P l) := by
        intro y
        exact ideal_pose_const h I th hth hf mf b b' (isPath_mem g2) (by tauto) y
      simp only [hcst]
      exact hasDerivAt_const _ _
  have hdw := hasDerivAt_weighted G hG (fun y l b' => I.pose (colVal root (setEntry th k b y) b') (P l)) _ x0 hder
  refine ⟨_, by simp only [List.map_map]; exact hdw, ?_⟩
  have hsum : (∑ l ∈ Finset.range N, ∑ b', ∑ i, ∑ j, (G.getD l 0) b' i j * ((if f ∈ P l ∧ b' = b then
        (if f.joint.jtype = .revolute then
          mkTwist (hat z * rotPart (I.pose (colVal root th b) (P l)))
            (cross z (posPart (I.pose (colVal root th b) (P l)) - posPart (I.pose (colVal root th b) (P jk))))
         else mkTwist 0 z) else 0 : M4) i j)) =
      ∑ l ∈ Finset.range N, r l * (if f.joint.jtype = .revolute then
          dot z (tauLink (I.pose (colVal root th b) (P l)) (G.getD l 0 b) +
            cross (posPart (I.pose (colVal root th b) (P l))) (posPart (G.getD l 0 b)) -
            cross (posPart (I.pose (colVal root th b) (P jk))) (posPart (G.getD l 0 b)))
        else dot z (posPart (G.getD l 0 b))) := by
    refine Finset.sum_congr rfl fun l _ => ?_
    rw [Finset.sum_eq_single b]
    · by_cases hin : f ∈ P l
      · simp only [hin, true_and, if_true, hr, one_mul]
        by_cases ht : f.joint.jtype = .revolute
        · simp only [ht, if_true]
          exact pair_revolute _ _ _ _
        · simp only [ht, if_false]
          exact pair_prismatic _ _
      · simp [hin, hr]
    · intro b' _ hb'
      simp [hb']
    · simp
  rw [hsum, hval, ← hN]
  have hpull : pullSum I (colVal root th b) f (G.map fun g => g b) ((List.range N).map P) =
      ∑ l ∈ Finset.range N, r l * pull f.joint.jtype (G.getD l 0 b) (I.reach (colVal root th b) (P l)) := by
    unfold pullSum
    rw [List.zipWith_map_left, ← hG, zipWith_range _ 0, sum_range_map]
    refine Finset.sum_congr rfl fun l _ => ?_
    simp only [hr]
    split <;> simp
  rw [hpull]
  have hE : (1 + (((1 + δ) ^ 2 * (1 + 54 * τ) * (1 + 3 * m.γ) ^ 3) ^ n - 1)) ^ 2 =
      ((1 + δ) ^ 2 * (1 + 54 * τ) * (1 + 3 * m.γ) ^ 3) ^ (2 * n) := by
    rw [add_sub_cancel, ← pow_mul, mul_comm n 2]
  rw [hE] at kr kp
  have hE0 : 0 ≤ ((1 + δ) ^ 2 * (1 + 54 * τ) * (1 + 3 * m.γ) ^ 3) ^ (2 * n) * (1 + 2 * m.γ) ^ 3 * (1 + m.u) ^ 3 *
      (1 + m.Γ N) * (1 + 2 * τ) - 1 := by
    have hδ : 0 ≤ δ := (hI f hf).lo.g_nonneg
    have a0 := m.Γ_nonneg N
    have a5 := m.u_nonneg
    have a1 : (1 : ℝ) ≤ (1 + δ) ^ 2 := one_le_pow₀ (by linarith)
    have a2 : (1 : ℝ) ≤ (1 + 3 * m.γ) ^ 3 := one_le_pow₀ (by linarith)
    have a3 : (1 : ℝ) ≤ (1 + 2 * m.γ) ^ 3 := one_le_pow₀ (by linarith)
    have a4 : (1 : ℝ) ≤ (1 + m.u) ^ 3 := one_le_pow₀ (by linarith)
    have a6 : 1 ≤ ((1 + δ) ^ 2 * (1 + 54 * τ) * (1 + 3 * m.γ) ^ 3) ^ (2 * n) := one_le_pow₀
      (one_le_mul_of_one_le_of_one_le (one_le_mul_of_one_le_of_one_le a1 (by linarith)) a2)
    have := one_le_mul_of_one_le_of_one_le (one_le_mul_of_one_le_of_one_le (one_le_mul_of_one_le_of_one_le
      (one_le_mul_of_one_le_of_one_le a6 a3) a4) (show (1 : ℝ) ≤ 1 + m.Γ N by linarith)) (show (1 : ℝ) ≤ 1 + 2 * τ by linarith)
    linarith
  by_cases ht : f.joint.jtype = .revolute
  · simp only [ht, if_true]
    refine kr.trans (mul_le_mul_of_nonneg_left (Finset.sum_le_sum fun l hl => ?_) hE0)
    simp only [hr]
    split
    case isFalse => simp
    case isTrue hfl =>
      rw [one_mul, one_mul]
      have hle : I.reach (colVal root th b) (P jk) ≤ I.reach (colVal root th b) (P l) := hpre l (Finset.mem_range.1 hl) hfl
      have := mul_le_mul_of_nonneg_right hle (vlen_nonneg (posPart (G.getD l 0 b)))
      simp only [pull]
      linarith
  · simp only [ht, if_false]
    have ht2 : f.joint.jtype = .prismatic := by
      cases hh : f.joint.jtype
      · exact absurd hh mf
      · exact absurd hh ht
      · rfl
    simpa [ht2, pull] using kp

/-! ## binary arithmetic -/

/-- sums of products one after the other -/
noncomputable def seqSum (rnd : ℝ → ℝ) (l : List (ℝ × ℝ)) : ℝ := l.foldr (fun p s => rnd (rnd (p.1 * p.2) + s)) 0

theorem seqSum_err {rnd : ℝ → ℝ} {u : ℝ} (hu : 0 ≤ u) (h : ∀ x, |rnd x - x| ≤ u * |x|) (l : List (ℝ × ℝ)) :
    |seqSum rnd l - (l.map fun p => p.1 * p.2).sum| ≤ ((1 + u) ^ (l.length + 1) - 1) * (l.map fun p => |p.1 * p.2|).sum := by
  induction l with
  | nil => simp [seqSum]
  | cons p l ih =>
    have e : seqSum rnd (p :: l) = rnd (rnd (p.1 * p.2) + seqSum rnd l) := rfl
    rw [e, List.map_cons, List.sum_cons, List.map_cons, List.sum_cons, List.length_cons]
    set S := (l.map fun p => p.1 * p.2).sum
    set A := (l.map fun p => |p.1 * p.2|).sum
    set x := p.1 * p.2
    set s := seqSum rnd l
    have hA : 0 ≤ A := List.sum_nonneg fun y hy => by
      obtain ⟨q, -, rfl⟩ := List.mem_map.1 hy
      positivity
    have hSA : |S| ≤ A := by
      have : ∀ l : List (ℝ × ℝ), |(l.map fun p => p.1 * p.2).sum| ≤ (l.map fun p => |p.1 * p.2|).sum := by
        intro l
        induction l with
        | nil => simp
        | cons q l ih2 => simp only [List.map_cons, List.sum_cons]; exact (abs_add_le _ _).trans (add_le_add le_rfl ih2)
      exact this l
    set X := (1 + u) ^ (l.length + 1) with hX
    have hX1 : 1 + u ≤ X := by
      have := pow_le_pow_right₀ (show (1 : ℝ) ≤ 1 + u by linarith) (show 1 ≤ l.length + 1 by omega)
      rwa [pow_one] at this
    have a1 := h x
    have a2 := h (rnd x + s)
    have a3 : |rnd x + s - (x + S)| ≤ u * |x| + (X - 1) * A := by
      rw [show rnd x + s - (x + S) = (rnd x - x) + (s - S) by ring]
      exact (abs_add_le _ _).trans (add_le_add a1 ih)
    have a4 : |rnd x + s| ≤ (1 + u) * |x| + X * A := by
      have := abs_add_le (rnd x + s - (x + S)) (x + S)
      rw [sub_add_cancel] at this
      have := abs_add_le x S
      linarith
    have a5 := mul_le_mul_of_nonneg_left a4 hu
    have a6 := abs_sub_le (rnd (rnd x + s)) (rnd x + s) (x + S)
    have a7 : 0 ≤ (X - (1 + u)) * |x| := mul_nonneg (by linarith) (abs_nonneg _)
    have a8 : 0 ≤ u * ((X - (1 + u)) * |x|) := mul_nonneg hu a7
    rw [pow_succ, ← hX]
    nlinarith

/-- binary arithmetic with `q` digits; sums are computed one after the other -/
noncomputable def binarySum (q : ℕ) (hq : 1 ≤ q) : SumMachine :=
  { binary q hq with
    Γ := fun n => (1 + 1 / 2 ^ q) ^ (n + 1) - 1
    Γ_nonneg := fun n => sub_nonneg.2 (one_le_pow₀ (by simp))
    sumProd := seqSum (binary q hq).rnd
    sumProd_err := fun l => seqSum_err (by positivity) (fun x => by
      have := (binary q hq).rnd_err x
      rwa [(binary_u q hq).1] at this) l }

theorem exp_factor {x c : ℝ} (hx : 0 ≤ x) (n : ℕ) (hc : x ≤ c) : (1 + x) ^ n ≤ Real.exp (n * c) := by
  rw [Real.exp_nat_mul]
  exact pow_le_pow_left₀ (by linarith) ((by linarith [Real.add_one_le_exp x] : 1 + x ≤ Real.exp x).trans (Real.exp_le_exp.2 hc)) n

theorem pullSum_nonneg (I : Ideal) (val : Joint → ℝ) (f : Frame) (G : List M4) (paths : List (List Frame)) :
    0 ≤ pullSum I val f G paths := by
  classical
  unfold pullSum
  induction G generalizing paths with
  | nil => simp
  | cons g G ih =>
    cases paths with
    | nil => simp
    | cons p paths =>
      rw [List.zipWith_cons_cons, List.sum_cons]
      refine add_nonneg ?_ (ih paths)
      split
      · have a1 := fro_nonneg (rotPart g)
        have a2 := vlen_nonneg (posPart g)
        have a3 := ideal_reach_nonneg I val p
        unfold pull
        split <;> positivity
      · exact le_rfl

/-- **C137**: with `q` binary digits (24 for `float32`, 53 for `float64`) and exactly representable data, an entry of the gradient is off
by at most `2 * (198 * n + N + 36) / 2 ^ q` times what the upstream gradient can contribute, where `n` is the depth of the tree and `N`
the number of frames. -/
theorem C137_precision (q : ℕ) (hq : 10 ≤ q) (root : Frame) (h : WF root) (hr : RigidTree root)
    {n : ℕ} (hn : ∀ p, IsPath root p → p.length ≤ n)
    (hs : (198 * n + (preorder root).length + 36 : ℝ) ≤ 2 ^ q) {B : ℕ} (th : List (Fin B → ℝ))
    (hth : th.length = (movingJoints root).length) (G : List (Fin B → M4)) (hG : G.length = (preorder root).length) :
    ∃ T grad paths, (Chain.initFl (binary q (by omega)) root).fkTensorFl (binary q (by omega)) th = .ok T ∧
      (Chain.initFl (binary q (by omega)) root).backwardFl (binarySum q (by omega)) T G = .ok grad ∧
      grad.length = (movingJoints root).length ∧ ListsPaths root (Chain.init root).idxToFrame.get? paths ∧
      ∀ f ∈ preorder root, Moving f.joint → ∀ b : Fin B, ∃ d,
        HasDerivAt (fun x => weighted G (paths.map fun p b' => pathT (colVal root (setEntry th (column root f.joint) b x) b') p)) d
          (colVal root th b f.joint) ∧
        |(grad.getD (column root f.joint) fun _ => 0) b - d| ≤
          2 * (198 * n + (preorder root).length + 36) / 2 ^ q *
          pullSum asStored (colVal root th b) f (G.map fun g => g b) paths := by
  obtain ⟨mu, mκ⟩ := binary_u q (by omega)
  have mγ := binary_γ q hq
  have h0 : (0 : ℝ) ≤ 1 / 2 ^ q := by positivity
  have h1 : (1 : ℝ) / 2 ^ q ≤ 1 / 1024 := by
    rw [show (1024 : ℝ) = 2 ^ 10 by norm_num]
    exact one_div_le_one_div_of_le (by positivity) (pow_le_pow_right₀ (by norm_num) hq)
  obtain ⟨T, grad, paths, g1, g2, g3, g4, g5⟩ := C137_rounding (binarySum q (by omega)) (δ := 0) (τ := 1 / 2 ^ q) mu.le mκ.le
    (h1.trans (by norm_num)) root h hn th hth asStored (asStored_storedAs hr h0) G hG
  refine ⟨T, grad, paths, g1, g2, g3, g4, fun f hf mf b => ?_⟩
  obtain ⟨d, d1, d2⟩ := g5 f hf mf b
  simp only [asStored_pose] at d1
  refine ⟨d, d1, d2.trans (mul_le_mul_of_nonneg_right ?_ ?_)⟩
  · have hγ0 : 0 ≤ (binary q (by omega)).γ := (binary q (by omega)).γ_nonneg
    have k0 : (binarySum q (by omega)).γ = (binary q (by omega)).γ := rfl
    have k1 : (binarySum q (by omega)).u = 1 / 2 ^ q := mu
    have k2 : 1 + (binarySum q (by omega)).Γ (preorder root).length = (1 + 1 / 2 ^ q) ^ ((preorder root).length + 1) := by
      show 1 + ((1 + 1 / 2 ^ q) ^ ((preorder root).length + 1) - 1) = _
      ring
    rw [k0, k1, k2]
    set γ := (binary q (by omega)).γ
    generalize hU : (1 : ℝ) / 2 ^ q = U at *
    set N := (preorder root).length
    have f1 : ((1 + 0 : ℝ) ^ 2 * (1 + 54 * U) * (1 + 3 * γ) ^ 3) ^ (2 * n) ≤ Real.exp ((2 * n : ℕ) * (99 * U)) := by
      rw [Real.exp_nat_mul]
      refine pow_le_pow_left₀ (by positivity) ((factor_le_exp le_rfl h0 hγ0).trans (Real.exp_le_exp.2 ?_)) _
      linarith
    have f2 := exp_factor (x := 2 * γ) (c := 10 * U) (by linarith) 3 (by linarith)
    have f3 := exp_factor (x := U) (c := U) h0 3 le_rfl
    have f4 := exp_factor (x := U) (c := U) h0 (N + 1) le_rfl
    have f5 := exp_factor (x := 2 * U) (c := 2 * U) (by linarith) 1 le_rfl
    rw [pow_one] at f5
    set Y := (198 * n + N + 36) * U with hY
    have hY1 : Y ≤ 1 := by
      rw [hY, ← hU, mul_one_div, div_le_one (by positivity)]
      exact hs
    have hY0 : 0 ≤ Y := by positivity
    have f6 : ((1 + 0 : ℝ) ^ 2 * (1 + 54 * U) * (1 + 3 * γ) ^ 3) ^ (2 * n) * (1 + 2 * γ) ^ 3 * (1 + U) ^ 3 *
        (1 + U) ^ (N + 1) * (1 + 2 * U) ≤ Real.exp Y := by
      have e : Real.exp Y = Real.exp ((2 * n : ℕ) * (99 * U)) * Real.exp ((3 : ℕ) * (10 * U)) * Real.exp ((3 : ℕ) * U) *
          Real.exp ((N + 1 : ℕ) * U) * Real.exp ((1 : ℕ) * (2 * U)) := by
        rw [← Real.exp_add, ← Real.exp_add, ← Real.exp_add, ← Real.exp_add, hY]
        congr 1
        push_cast
        ring
      rw [e]
      gcongr
    have f7 := Real.abs_exp_sub_one_le (x := Y) (by rw [abs_of_nonneg hY0]; exact hY1)
    rw [abs_of_nonneg hY0] at f7
    have f8 := (abs_le.1 f7).2
    have e : 2 * (198 * n + N + 36) / 2 ^ q = 2 * Y := by rw [hY, ← hU]; ring
    rw [e]
    linarith
  · exact pullSum_nonneg ..

/-- no path is longer than the number of frames -/
theorem isPath_length_le {root : Frame} (h : WF root) {p : List Frame} (hp : IsPath root p) : p.length ≤ (preorder root).length :=
  (List.subperm_of_subset (isPath_nodup h hp) (isPath_mem hp)).length_le

/-- `exTree` (a revolute and two further moving joints) in single precision, with an upstream gradient of ones -/
example : ∃ grad paths, ∃ T, (Chain.initFl (binary 24 (by norm_num)) exTree).fkTensorFl (binary 24 (by norm_num)) (B := 1)
      [fun _ => 1, fun _ => 3, fun _ => 2] = .ok T ∧
    (Chain.initFl (binary 24 (by norm_num)) exTree).backwardFl (binarySum 24 (by norm_num)) T
      (List.replicate (preorder exTree).length fun _ _ _ => 1) = .ok grad ∧ grad.length = 3 ∧
    ListsPaths exTree (Chain.init exTree).idxToFrame.get? paths ∧
    ∀ f ∈ preorder exTree, Moving f.joint → ∃ d : ℝ,
      |(grad.getD (column exTree f.joint) fun _ => 0) 0 - d| ≤ 1 / 1000 *
        pullSum asStored (colVal exTree [fun _ => 1, fun _ => 3, fun _ => 2] (0 : Fin 1)) f
          (List.replicate (preorder exTree).length fun _ _ => 1) paths := by
  have hm : (movingJoints exTree).length = 3 := by simp [exTree, movingJoints, preorder, preorderL, Frame.joint, Moving]
  have hl : (preorder exTree).length ≤ 10 := by simp [exTree, preorder, preorderL]
  have hl' : ((preorder exTree).length : ℝ) ≤ 10 := by exact_mod_cast hl
  obtain ⟨T, grad, paths, h1, h2, h3, h4, h5⟩ := C137_precision 24 (by norm_num) exTree exTree_wf exTree_rigid
    (fun p hp => isPath_length_le exTree_wf hp) (by norm_num; linarith) (B := 1) [fun _ => 1, fun _ => 3, fun _ => 2] (by rw [hm]; rfl)
    (List.replicate (preorder exTree).length fun _ _ _ => 1) (List.length_replicate ..)
  refine ⟨grad, paths, T, h1, h2, by rw [h3, hm], h4, fun f hf mf => ?_⟩
  obtain ⟨d, -, hd⟩ := h5 f hf mf 0
  refine ⟨d, hd.trans ?_⟩
  have e : (List.replicate (preorder exTree).length fun _ _ _ => 1 : List (Fin 1 → M4)).map (fun g => g 0) =
      List.replicate (preorder exTree).length fun _ _ => 1 := List.map_replicate
  rw [e]
  refine mul_le_mul_of_nonneg_right ?_ (pullSum_nonneg ..)
  rw [div_le_iff₀ (by positivity)]
  norm_num
  linarith

end PK
