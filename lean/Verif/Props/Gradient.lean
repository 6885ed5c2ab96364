import Verif.Lemmas.FkDeriv
import Verif.Model.Backward

/-!
# C16: the analytical backward pass computes the gradient
-/

namespace PK
open Spec Matrix

/-! ## the DOF tables -/

theorem dofFrameIndicesOf_length (n N : ℕ) (ji : List ℤ) : (dofFrameIndicesOf n N ji).length = n := by
  unfold dofFrameIndicesOf
  induction N with
  | zero => simp
  | succ N ih =>
    rw [List.range_succ, List.foldl_append, List.foldl_cons, List.foldl_nil]
    split
    · split
      · rw [List.length_set]; exact ih
      · exact ih
    · exact ih

theorem dofFrameIndicesOf_get (n : ℕ) (ji : List ℤ) (k i0 : ℕ) (hk : k < n) (hi : ji[i0]? = some (k : ℤ))
    (hu : ∀ i, ji[i]? = some (k : ℤ) → i = i0) (N : ℕ) (hN : i0 < N) :
    (dofFrameIndicesOf n N ji)[k]? = some i0 := by
  induction N with
  | zero => omega
  | succ N ih =>
    have hs : dofFrameIndicesOf n (N + 1) ji = match ji[N]? with
        | some j => if 0 ≤ j then (dofFrameIndicesOf n N ji).set j.toNat N else dofFrameIndicesOf n N ji
        | none => dofFrameIndicesOf n N ji := by
      unfold dofFrameIndicesOf
      rw [List.range_succ, List.foldl_append, List.foldl_cons, List.foldl_nil]
      cases ji[N]? <;> rfl
    rw [hs]
    by_cases hNi : N = i0
    · subst hNi
      rw [hi]
      simp [dofFrameIndicesOf_length, hk]
    · have ih' := ih (by omega)
      cases hj : ji[N]? with
      | none => exact ih'
      | some j =>
        simp only
        split
        · rename_i hj0
          have : j.toNat ≠ k := by
            intro hc
            apply hNi
            apply hu N
            rw [hj, ← hc]
            simp [hj0]
          rw [List.getElem?_set_ne this]; exact ih'
        · exact ih'

/-- the frame that a column drives -/
theorem column_frame {root : Frame} (h : WF root) {k : ℕ} (hk : k < (movingJoints root).length) :
    ∃ f ∈ preorder root, Moving f.joint ∧ column root f.joint = k ∧ (movingJoints root)[k]? = some f.joint := by
  have hj := List.getElem_mem hk
  obtain ⟨mf, f, hf, hfj⟩ := mem_movingJoints.1 hj
  refine ⟨f, hf, hfj ▸ mf, ?_, by rw [hfj, List.getElem?_eq_getElem hk]⟩
  rw [column, hfj]
  have := h.joints_nodup.idxOf_getElem k (by simpa using hk)
  simpa using this

theorem init_dofFrameIndices {root f : Frame} (h : WF root) (mf : Moving f.joint) {jk : ℕ} {e : QItem}
    (he : (visit root)[jk]? = some e) (hef : e.1 = f) :
    (Chain.init root).dofFrameIndices[column root f.joint]? = some jk := by
  have hf : f ∈ preorder root := hef ▸ visit_mem_preorder he
  have hn : (Chain.init root).dofFrameIndices =
      dofFrameIndicesOf (movingJoints root).length (visit root).length (Chain.init root).jointIndices := by
    have h1 := init_nJoints root
    have h2 := init_numFrames root
    rw [← h1, ← h2]; rfl
  have hji := init_jointIndices root
  rw [hn]
  apply dofFrameIndicesOf_get
  · subst hef; exact column_lt (List.mem_of_getElem? he) mf
  · rw [hji, List.getElem?_map, he]
    subst hef
    simp only [Option.map_some]
    rw [if_neg mf]
  · intro i hi
    rw [hji, List.getElem?_map] at hi
    obtain ⟨e', he', hv⟩ := Option.map_eq_some_iff.1 hi
    by_cases ht : e'.1.joint.jtype = .fixed
    · rw [if_pos ht] at hv
      have : (0 : ℤ) ≤ column root f.joint := Int.natCast_nonneg _
      omega
    · rw [if_neg ht] at hv
      have hc : column root e'.1.joint = column root f.joint := by exact_mod_cast hv
      have := h.column_inj (visit_mem_preorder he') hf ht mf hc
      exact h.pos_unique he' he (by rw [this, hef])
  · exact (List.getElem?_eq_some_iff.1 he).1

/-- membership in a path, as frames and as indices -/
theorem mem_path_iff {root f : Frame} (h : WF root) {jk : ℕ} {e : QItem} {pi : List ℕ} {p : List Frame}
    (he : (visit root)[jk]? = some e) (hef : e.1 = f) (hpi : pi.map (frameAt root) = p.map some) :
    jk ∈ pi ↔ f ∈ p := by
  constructor
  · intro hm
    have : frameAt root jk ∈ p.map some := hpi ▸ List.mem_map.2 ⟨jk, hm, rfl⟩
    rw [frameAt, he] at this
    obtain ⟨g, hg, hge⟩ := List.mem_map.1 this
    simp only [Option.map_some, Option.some.injEq] at hge
    rw [← hef, ← hge]; exact hg
  · intro hm
    have : some f ∈ pi.map (frameAt root) := hpi ▸ List.mem_map.2 ⟨f, hm, rfl⟩
    obtain ⟨i, hi, hif⟩ := List.mem_map.1 this
    obtain ⟨e', he', hfe⟩ := Option.map_eq_some_iff.1 hif
    have := h.pos_unique he he' (by rw [hef, hfe])
    rw [this]; exact hi

/-! ## sums -/

theorem zipWith_range {α β γ : Type} (f : α → β → γ) (d : α) (g : ℕ → β) (l : List α) :
    List.zipWith f l ((List.range l.length).map g) = (List.range l.length).map fun i => f (l.getD i d) (g i) := by
  apply List.ext_getElem
  · simp
  · intro i h1 h2
    simp at h1
    simp [List.getD, List.getElem?_eq_getElem h1]

theorem sum_range_map {A : Type} [AddCommMonoid A] (n : ℕ) (f : ℕ → A) :
    ((List.range n).map f).sum = ∑ i ∈ Finset.range n, f i := rfl

theorem dot_sum (z : V3) (n : ℕ) (f : ℕ → V3) :
    dot z (∑ i ∈ Finset.range n, f i) = ∑ i ∈ Finset.range n, dot z (f i) := by
  induction n with
  | zero => simp [dot]
  | succ n ih => rw [Finset.sum_range_succ, Finset.sum_range_succ, ← ih]; simp [dot]; ring

theorem cross_sum (o : V3) (n : ℕ) (f : ℕ → V3) :
    cross o (∑ i ∈ Finset.range n, f i) = ∑ i ∈ Finset.range n, cross o (f i) := by
  induction n with
  | zero => ext i; fin_cases i <;> simp [cross]
  | succ n ih =>
    rw [Finset.sum_range_succ, Finset.sum_range_succ, ← ih]
    ext i; fin_cases i <;> simp [cross] <;> ring

/-- pairing of an upstream gradient with a velocity -/
theorem pair_revolute (G T : M4) (z o : V3) :
    ∑ i, ∑ j, G i j * mkTwist (hat z * rotPart T) (cross z (posPart T - o)) i j =
      dot z (tauLink T G + cross (posPart T) (posPart G) - cross o (posPart G)) := by
  simp only [Fin.sum_univ_four, mkTwist, hat_eq]
  simp [Matrix.mul_apply, Fin.sum_univ_three, dot, cross, tauLink, rotPart, posPart]
  ring

theorem pair_prismatic (G : M4) (z : V3) :
    ∑ i, ∑ j, G i j * mkTwist 0 z i j = dot z (posPart G) := by
  simp only [Fin.sum_univ_four, mkTwist]
  simp [dot, posPart]
  ring

theorem hasDerivAt_weighted {B N : ℕ} (G : List (Fin B → M4)) (hG : G.length = N) (T : ℝ → ℕ → Fin B → M4)
    (T' : ℕ → Fin B → M4) (x : ℝ)
    (h : ∀ l < N, ∀ b i j, HasDerivAt (fun y => T y l b i j) (T' l b i j) x) :
    HasDerivAt (fun y => weighted G ((List.range N).map (T y)))
      (∑ l ∈ Finset.range N, ∑ b, ∑ i, ∑ j, (G.getD l 0) b i j * T' l b i j) x := by
  subst hG
  have : ∀ y, weighted G ((List.range G.length).map (T y)) =
      ∑ l ∈ Finset.range G.length, ∑ b, ∑ i, ∑ j, (G.getD l 0) b i j * T y l b i j := by
    intro y
    rw [weighted, zipWith_range _ 0, sum_range_map]
  simp only [this]
  refine HasDerivAt.fun_sum fun l hl => HasDerivAt.fun_sum fun b _ => HasDerivAt.fun_sum fun i _ =>
    HasDerivAt.fun_sum fun j _ => (h l (Finset.mem_range.1 hl) b i j).const_mul _

/-- C16: for every upstream gradient `G` on all frame poses, every joint column `k` and row `b`, the
entry `[b, k]` that the backward pass returns is the derivative with respect to `th[b, k]` of the
`G`-weighted sum of all entries of `forward_kinematics_tensor`. -/
theorem C16_backward_is_gradient (root : Frame) (h : WF root) (hr : RigidTree root) {B : ℕ}
    (th : List (Fin B → ℝ)) (hth : th.length = (movingJoints root).length)
    (G : List (Fin B → M4)) (hG : G.length = (preorder root).length) :
    ∃ T grad, (Chain.init root).fkTensor th = .ok T ∧ (Chain.init root).backward T G = .ok grad ∧
      grad.length = (movingJoints root).length ∧
      ∀ (k : ℕ) (b : Fin B), k < (movingJoints root).length → ∃ loss : ℝ → ℝ,
        (∀ x, ∃ T', (Chain.init root).fkTensor (setEntry th k b x) = .ok T' ∧ loss x = weighted G T') ∧
        HasDerivAt loss ((grad.getD k fun _ => 0) b) ((th.getD k fun _ => 0) b) := by
  have hN : (visit root).length = (preorder root).length := by simpa using (visit_perm root).length_eq
  rw [← hN] at hG
  have hfk : ∀ th' : List (Fin B → ℝ), th'.length = (movingJoints root).length →
      (Chain.init root).fkTensor th' = .ok ((List.range (visit root).length).map (poseAt root th')) := by
    intro th' hth'
    apply fkTensor_ok h.joints_nodup
    · intro hne; rw [hth']; exact List.length_pos_iff.2 hne
    · simp [broadcastCols, hth']
  have hdlen : (Chain.init root).dofFrameIndices.length = (movingJoints root).length := by
    rw [← init_nJoints root]; exact dofFrameIndicesOf_length _ _ _
  -- every DOF frame index is a position
  have hdof : ∀ i ∈ (Chain.init root).dofFrameIndices,
      tensorAt ((List.range (visit root).length).map (poseAt root th)) i = .ok (poseAt root th i) := by
    intro i hi
    obtain ⟨k, hk, hki⟩ := List.mem_iff_getElem.1 hi
    obtain ⟨f, hf, mf, hc, -⟩ := column_frame h (hdlen ▸ hk)
    obtain ⟨jk, e, he, hef⟩ := exists_pos hf
    have := init_dofFrameIndices h mf he hef
    rw [hc, List.getElem?_eq_getElem hk, hki, Option.some.injEq] at this
    subst this
    have hlt := (List.getElem?_eq_some_iff.1 he).1
    simp [tensorAt, hlt]
  obtain ⟨grad, hgrad⟩ : ∃ grad, grad = List.zipWith (fun (ta : (Fin B → M4) × V3) (rm : Bool × List ℝ) => fun b =>
    let z := rotPart (ta.1 b) *ᵥ ta.2
    let o := posPart (ta.1 b)
    let sumTau := maskSum rm.2 (List.zipWith (fun t g => tauLink (t b) (g b)) ((List.range (visit root).length).map (poseAt root th)) G)
    let sumGradT := maskSum rm.2 (G.map fun g => posPart (g b))
    let sumCross := maskSum rm.2 (List.zipWith (fun t g => cross (posPart (t b)) (posPart (g b))) ((List.range (visit root).length).map (poseAt root th)) G)
    if rm.1 then dot z (sumTau + sumCross - cross o sumGradT) else dot z sumGradT)
    (List.zip ((Chain.init root).dofFrameIndices.map (poseAt root th)) (Chain.init root).axes)
    (List.zip (Chain.init root).dofIsRevolute (Chain.init root).dofAncestorMask) := ⟨_, rfl⟩
  have hmlen : (Chain.init root).dofAncestorMask.length = (movingJoints root).length := by
    rw [← hdlen]; exact List.length_map _
  have hrlen : (Chain.init root).dofIsRevolute.length = (movingJoints root).length := by
    rw [← hdlen]; exact List.length_map _
  refine ⟨_, grad, hfk th hth, ?_, ?_, ?_⟩
  · unfold Chain.backward fkBackward
    rw [mapM_ok _ _ _ hdof, hgrad]
    rfl
  · rw [hgrad]; simp [hdlen, hmlen, hrlen, init_axes_length]
  intro k b hk
  obtain ⟨f, hf, mf, hc, -⟩ := column_frame h hk
  obtain ⟨jk, e, he, hef⟩ := exists_pos hf
  have hdk := init_dofFrameIndices h mf he hef
  have hax := init_axes_get h.joints_nodup (List.mem_of_getElem? he) (hef ▸ mf)
  rw [hef, hc] at hax
  rw [hc] at hdk
  have hmask : (Chain.init root).dofAncestorMask[k]? = some ((ancestors root).map fun anc => if jk ∈ anc then (1 : ℝ) else 0) := by
    show ((Chain.init root).dofFrameIndices.map fun fj => (ancestors root).map fun anc => if fj ∈ anc then (1 : ℝ) else 0)[k]? = _
    rw [List.getElem?_map, hdk]; rfl
  have hrev : (Chain.init root).dofIsRevolute[k]? = some (decide (f.joint.jtype = .revolute)) := by
    show ((Chain.init root).dofFrameIndices.map fun fj => (Chain.init root).jointTypeIndices[fj]? == some 1)[k]? = _
    rw [List.getElem?_map, hdk, init_types]
    simp only [Option.map_some, List.getElem?_map, he, hef]
    cases f.joint.jtype <;> rfl
  -- the value computed by the code
  have hval : (grad.getD k fun _ => 0) b =
      ∑ l ∈ Finset.range (visit root).length, (if jk ∈ ((ancestors root)[l]?).getD [] then
        (if f.joint.jtype = .revolute then
          dot (rotPart (poseAt root th jk b) *ᵥ f.joint.axis) (tauLink (poseAt root th l b) (G.getD l 0 b) +
            cross (posPart (poseAt root th l b)) (posPart (G.getD l 0 b)) -
            cross (posPart (poseAt root th jk b)) (posPart (G.getD l 0 b)))
         else dot (rotPart (poseAt root th jk b) *ᵥ f.joint.axis) (posPart (G.getD l 0 b))) else 0) := by
    have hmap : ∀ (X : ℕ → V3), maskSum ((ancestors root).map fun anc => if jk ∈ anc then (1 : ℝ) else 0)
        ((List.range (visit root).length).map X) =
        ∑ l ∈ Finset.range (visit root).length, (if jk ∈ ((ancestors root)[l]?).getD [] then X l else 0) := by
      intro X
      have hl : ((ancestors root).map fun anc => if jk ∈ anc then (1 : ℝ) else 0).length = (visit root).length := by
        rw [List.length_map, ancestors_length]
      rw [maskSum, ← hl, zipWith_range _ 0, sum_range_map, hl]
      refine Finset.sum_congr rfl fun l hl' => ?_
      have : l < (ancestors root).length := by rw [ancestors_length]; exact Finset.mem_range.1 hl'
      simp only [List.getD, List.getElem?_map, List.getElem?_eq_getElem this, Option.map_some, Option.getD_some]
      split <;> simp
    have hz1 : ∀ (F : (Fin B → M4) → (Fin B → M4) → V3),
        List.zipWith F ((List.range (visit root).length).map (poseAt root th)) G =
        (List.range (visit root).length).map fun l => F (poseAt root th l) (G.getD l 0) := by
      intro F
      rw [List.zipWith_comm, ← hG, zipWith_range _ 0]
    have hz2 : G.map (fun g => posPart (g b)) = (List.range (visit root).length).map fun l => posPart (G.getD l 0 b) := by
      rw [← hG]
      apply List.ext_getElem
      · simp
      · intro i h1 h2
        simp at h1
        simp [List.getD, List.getElem?_eq_getElem h1]
    rw [hgrad]
    simp only [List.getD, List.getElem?_zipWith, List.zip, List.getElem?_map, hdk, hax, hmask, hrev, Option.map_some,
      Option.getD_some]
    simp only [hz1, hz2, hmap]
    by_cases ht : f.joint.jtype = .revolute
    · simp only [ht, decide_true, if_true]
      rw [cross_sum, ← Finset.sum_add_distrib, ← Finset.sum_sub_distrib, dot_sum]
      refine Finset.sum_congr rfl fun l _ => ?_
      split
      · rfl
      · simp [dot, cross]
    · simp only [ht, decide_false, Bool.false_eq_true, if_false]
      rw [dot_sum]
      refine Finset.sum_congr rfl fun l _ => ?_
      split
      · rfl
      · simp [dot]
  refine ⟨fun x => weighted G ((List.range (visit root).length).map (poseAt root (setEntry th k b x))),
    fun x => ⟨_, hfk _ (by rw [setEntry_length, hth]), rfl⟩, ?_⟩
  set x0 := (th.getD k fun _ => 0) b with hx0
  -- velocities
  have hder : ∀ l < (visit root).length, ∀ b' i j, HasDerivAt (fun y => poseAt root (setEntry th k b y) l b' i j)
      ((if jk ∈ ((ancestors root)[l]?).getD [] ∧ b' = b then
        (if f.joint.jtype = .revolute then
          mkTwist (hat (rotPart (poseAt root th jk b) *ᵥ f.joint.axis) * rotPart (poseAt root th l b))
            (cross (rotPart (poseAt root th jk b) *ᵥ f.joint.axis) (posPart (poseAt root th l b) - posPart (poseAt root th jk b)))
         else mkTwist 0 (rotPart (poseAt root th jk b) *ᵥ f.joint.axis)) else 0 : M4) i j) x0 := by
    intro l hl b' i j
    obtain ⟨el, hel⟩ : ∃ el, (visit root)[l]? = some el := ⟨_, List.getElem?_eq_getElem hl⟩
    obtain ⟨pi, p, g1, g2, g3, g4, -⟩ := ancestors_isPath root l el hel
    have hpose : ∀ (t : List (Fin B → ℝ)) (c : Fin B), poseAt root t l c = pathT (colVal root t c) p := fun t c =>
      poseAt_path root t g1 g3 c
    have hmem := mem_path_iff h he hef g3
    rw [g1, Option.getD_some]
    simp only [hpose]
    by_cases hin : jk ∈ pi ∧ b' = b
    · rw [if_pos hin]
      obtain ⟨hfp', rfl⟩ := hin
      have hfp := hmem.1 hfp'
      obtain ⟨C, pf, hC, hpf, hpl, hrig, hmul, hd⟩ := pose_deriv h hr th hth mf b' g2 hfp
      rw [hc] at hrig hmul hd
      have hposk : poseAt root th jk b' = pathT (colVal root th b') pf := by
        have := h.pose_path th hpf hpl b'
        rw [← hef, h.posOf_eq he] at this
        exact this
      have hd0 := hd x0 i j
      have hrig0 := hrig x0
      have hmul0 := hmul x0
      rw [hx0, setEntry_self] at hd0 hrig0 hmul0
      have hg := twist_geometry (j := f.joint) hrig0 hC.2
      simp only at hg
      rw [hg, ← hmul0, ← hposk] at hd0
      rw [← hx0] at hd0
      cases ht : f.joint.jtype
      · exact absurd ht mf
      · simpa [ht] using hd0
      · simpa [ht] using hd0
    · rw [if_neg hin]
      have hcst : ∀ y, pathT (colVal root (setEntry th k b y) b') p = pathT (colVal root th b') p := by
        intro y
        rw [← hc]
        exact pose_const h th hth hf mf b b' (isPath_mem g2) (by rw [← hmem]; tauto) y
      simp only [hcst]
      exact hasDerivAt_const _ _
  convert hasDerivAt_weighted G hG (fun y => poseAt root (setEntry th k b y)) _ x0 hder using 1
  rw [hval]
  refine Finset.sum_congr rfl fun l _ => ?_
  rw [Finset.sum_eq_single b]
  · by_cases hin : jk ∈ ((ancestors root)[l]?).getD []
    · simp only [hin, true_and, if_true]
      by_cases ht : f.joint.jtype = .revolute
      · simp only [ht, if_true]
        exact (pair_revolute _ _ _ _).symm
      · simp only [ht, if_false]
        exact (pair_prismatic _ _).symm
    · simp [hin]
  · intro b' _ hb'
    simp [hb']
  · simp

/-- the hypotheses of C16 hold for `exTree` and every batch -/
example {B : ℕ} : WF exTree ∧ RigidTree exTree ∧
    ∃ G : List (Fin B → M4), G.length = (preorder exTree).length :=
  ⟨exTree_wf, exTree_rigid, List.replicate (preorder exTree).length fun _ => 1, by simp⟩

end PK
