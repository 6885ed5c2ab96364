import Verif.Lemmas.IeeeGrad
import Verif.Lemmas.IeeeFk
import Verif.Spec.FloatGrad
import Verif.Props.Gradient
import Verif.Props.Ieee

/-!
# C138: infinities and NaN in the analytical gradient
-/

namespace PK
open Spec Matrix

/-- the backward pass succeeds, and what its entries are -/
theorem backwardI_ok (m : Ieee) {root : Frame} (h : WF root) {B : ℕ} (T G : List (Fin B → FM4)) (hT : T.length = (preorder root).length) :
    ∃ grad, (Chain.init root).backwardI m T G = .ok grad ∧ grad.length = (movingJoints root).length ∧
      ∀ f ∈ preorder root, Moving f.joint → ∃ (jk : ℕ) (e : QItem) (D g : _), (visit root)[jk]? = some e ∧ e.1 = f ∧ T[jk]? = some D ∧
        grad[column root f.joint]? = some g ∧ ∀ b, g b = gradEntryI m (T.map fun t => t b) (G.map fun g => g b) (D b) f.joint.axis
          (decide (f.joint.jtype = .revolute)) ((ancestors root).map fun anc => if jk ∈ anc then (1 : ℝ) else 0) := by
  have hN : (visit root).length = (preorder root).length := by simpa using (visit_perm root).length_eq
  rw [← hN] at hT
  have hdlen : (Chain.init root).dofFrameIndices.length = (movingJoints root).length := by
    rw [← init_nJoints root]; exact dofFrameIndicesOf_length _ _ _
  have hdof : ∀ i ∈ (Chain.init root).dofFrameIndices, tensorAtI T i = .ok (T.getD i fun _ => finM 0) := by
    intro i hi
    obtain ⟨k, hk, hki⟩ := List.mem_iff_getElem.1 hi
    obtain ⟨f, hf, mf, hc, -⟩ := column_frame h (hdlen ▸ hk)
    obtain ⟨jk, e, he, hef⟩ := exists_pos hf
    have := init_dofFrameIndices h mf he hef
    rw [hc, List.getElem?_eq_getElem hk, hki, Option.some.injEq] at this
    subst this
    have hlt := (List.getElem?_eq_some_iff.1 he).1
    have hlt' : i < T.length := by omega
    simp [tensorAtI, hlt', List.getD]
  have hmlen : (Chain.init root).dofAncestorMask.length = (movingJoints root).length := by
    rw [← hdlen]; exact List.length_map _
  have hrlen : (Chain.init root).dofIsRevolute.length = (movingJoints root).length := by
    rw [← hdlen]; exact List.length_map _
  refine ⟨_, by unfold Chain.backwardI; rw [mapM_ok _ _ _ hdof]; rfl, by simp [hdlen, hmlen, hrlen, init_axes_length], ?_⟩
  intro f hf mf
  obtain ⟨jk, e, he, hef⟩ := exists_pos hf
  have hjk : jk < T.length := by rw [hT]; exact (List.getElem?_eq_some_iff.1 he).1
  have hdk := init_dofFrameIndices h mf he hef
  have hax := init_axes_get h.joints_nodup (List.mem_of_getElem? he) (hef ▸ mf)
  rw [hef] at hax
  have hmask : (Chain.init root).dofAncestorMask[column root f.joint]? =
      some ((ancestors root).map fun anc => if jk ∈ anc then (1 : ℝ) else 0) := by
    show ((Chain.init root).dofFrameIndices.map fun fj => (ancestors root).map fun anc => if fj ∈ anc then (1 : ℝ) else 0)[_]? = _
    rw [List.getElem?_map, hdk]; rfl
  have hrev : (Chain.init root).dofIsRevolute[column root f.joint]? = some (decide (f.joint.jtype = .revolute)) := by
    show ((Chain.init root).dofFrameIndices.map fun fj => (Chain.init root).jointTypeIndices[fj]? == some 1)[_]? = _
    rw [List.getElem?_map, hdk, init_types]
    simp only [Option.map_some, List.getElem?_map, he, hef]
    cases f.joint.jtype <;> rfl
  refine ⟨jk, e, T[jk], _, he, hef, List.getElem?_eq_getElem hjk, ?_, fun b => rfl⟩
  simp only [List.getElem?_zipWith, List.zip, List.getElem?_map, hdk, hax, hmask, hrev, Option.map_some, List.getD,
    List.getElem?_eq_getElem hjk, Option.getD_some]

/-- the paths to the frames in the order of the poses -/
theorem exists_listsPaths {root : Frame} (h : WF root) : ∃ paths, ListsPaths root (Chain.init root).idxToFrame.get? paths ∧
    ∀ (l : ℕ) (p : List Frame), paths[l]? = some p → ∃ pi : List ℕ, (ancestors root)[l]? = some pi ∧ pi.map (frameAt root) = p.map some := by
  have hN : (visit root).length = (preorder root).length := by simpa using (visit_perm root).length_eq
  set N := (visit root).length with hNdef
  have hP : ∀ l, ∃ p : List Frame, ∀ hl : l < N, ∃ pi, (ancestors root)[l]? = some pi ∧ IsPath root p ∧
      pi.map (frameAt root) = p.map some ∧ p.getLast? = some ((visit root)[l]).1 := by
    intro l
    by_cases hl : l < N
    · obtain ⟨pi, p, g1, g2, g3, g4, -⟩ := ancestors_isPath root l _ (List.getElem?_eq_getElem hl)
      exact ⟨p, fun _ => ⟨pi, g1, g2, g3, g4⟩⟩
    · exact ⟨[], fun hc => absurd hc hl⟩
  choose P hP using hP
  have key : ∀ (l : ℕ) (p : List Frame), ((List.range N).map P)[l]? = some p → l < N ∧ p = P l := by
    intro l p hlp
    rw [List.getElem?_map, Option.map_eq_some_iff] at hlp
    obtain ⟨l', hl', rfl⟩ := hlp
    rw [List.getElem?_eq_some_iff] at hl'
    obtain ⟨hl, e⟩ := hl'
    simp at hl e
    exact ⟨hl, by rw [e]⟩
  refine ⟨(List.range N).map P, ⟨by simp [hN], fun l p hlp => ?_⟩, fun l p hlp => ?_⟩
  · obtain ⟨hl, rfl⟩ := key l p hlp
    obtain ⟨pi, g1, g2, g3, g4⟩ := hP l hl
    exact ⟨g2, by rw [g4, h.idxToFrame (List.getElem?_eq_getElem hl)]; rfl⟩
  · obtain ⟨hl, rfl⟩ := key l p hlp
    obtain ⟨pi, g1, g2, g3, g4⟩ := hP l hl
    exact ⟨pi, g1, g3⟩

/-- **C138**: the gradient of a row depends only on the poses and the upstream gradient of this row: infinities and NaN in
another row, or the size of the batch, do not change it. -/
theorem C138_rows (m : Ieee) (root : Frame) (h : WF root) {B B' : ℕ} (T G : List (Fin B → FM4)) (T' G' : List (Fin B' → FM4))
    (hT : T.length = (preorder root).length) (hT' : T'.length = (preorder root).length) :
    ∃ grad grad', (Chain.init root).backwardI m T G = .ok grad ∧ (Chain.init root).backwardI m T' G' = .ok grad' ∧
      ∀ f ∈ preorder root, Moving f.joint → ∃ g g', grad[column root f.joint]? = some g ∧ grad'[column root f.joint]? = some g' ∧
        ∀ b b', (T.map fun t => t b) = (T'.map fun t => t b') → (G.map fun x => x b) = (G'.map fun x => x b') → g b = g' b' := by
  obtain ⟨grad, h1, -, h2⟩ := backwardI_ok m h T G hT
  obtain ⟨grad', h1', -, h2'⟩ := backwardI_ok m h T' G' hT'
  refine ⟨grad, grad', h1, h1', fun f hf mf => ?_⟩
  obtain ⟨jk, e, D, g, k1, k2, k3, k4, k5⟩ := h2 f hf mf
  obtain ⟨jk', e', D', g', k1', k2', k3', k4', k5'⟩ := h2' f hf mf
  obtain rfl : jk' = jk := h.pos_unique k1' k1 (by rw [k2, k2'])
  refine ⟨g, g', k4, k4', fun b b' e1 e2 => ?_⟩
  have hD : D b = D' b' := by
    have := congrArg (fun l => l[jk']?) e1
    simpa [k3, k3'] using this
  rw [k5, k5', e1, e2, hD]

theorem gradEntryI_spread (m : Ieee) {T G : List FM4} (D : FM4) (axis : V3) {row : List ℝ} (hl : T.length = G.length)
    (hr : T.length ≤ row.length) {l : ℕ} {t g : FM4} (ht : T[l]? = some t) (hg : G[l]? = some g) {i : Fin 3} {j : Fin 4}
    (hn : (t i.castSucc j).isFinite = false ∨ (g i.castSucc j).isFinite = false) :
    (gradEntryI m T G D axis true row).isFinite = false := by
  have key : ∀ k, (maskSumI m row (List.zipWith (tauLinkI m) T G) k).isFinite = false ∨
      (maskSumI m row (List.zipWith (fun t g => crossI m (posI t) (posI g)) T G) k).isFinite = false →
      (gradEntryI m T G D axis true row).isFinite = false := by
    intro k hk
    simp only [gradEntryI, if_true]
    exact dot3I_strict m (i := k) (.inr (subI_strict m (.inl (addI_strict m hk))))
  revert hn
  refine Fin.lastCases ?_ (fun j' => ?_) j
  · intro hn
    obtain ⟨k, hk⟩ := crossI_strict m (a := posI t) (b := posI g) (i := i) hn
    refine key k (.inr (maskSumI_strict m (l := l) (by simp [← hl, hr]) ?_ hk))
    simp [List.getElem?_zipWith, ht, hg]
  · intro hn
    obtain ⟨k, hk⟩ := tauLinkI_strict m (T := t) (G := g) (i := i) (k := j') hn
    refine key k (.inl (maskSumI_strict m (l := l) (by simp [← hl, hr]) ?_ hk))
    simp [List.getElem?_zipWith, ht, hg]

theorem gradEntryI_spread_pris (m : Ieee) {T G : List FM4} (D : FM4) (axis : V3) {row : List ℝ}
    (hr : G.length ≤ row.length) {l : ℕ} {g : FM4} (hg : G[l]? = some g) {i : Fin 3} (hn : (g i.castSucc 3).isFinite = false) :
    (gradEntryI m T G D axis false row).isFinite = false := by
  simp only [gradEntryI, Bool.false_eq_true, if_false]
  refine dot3I_strict m (i := i) (.inr (maskSumI_strict m (l := l) (x := posI g) (by simpa using hr) ?_ hn))
  simp [hg]

/-- **C138** (what the code does instead): an infinity or NaN anywhere in the first three rows of the pose or of the upstream
gradient of any frame makes the gradient of every revolute joint of the robot, on whatever branch, infinite or NaN; one in the
position part of an upstream gradient also that of every prismatic joint. -/
theorem C138_spreads (m : Ieee) (root : Frame) (h : WF root) {B : ℕ} (T G : List (Fin B → FM4))
    (hT : T.length = (preorder root).length) (hG : G.length = (preorder root).length) :
    ∃ grad, (Chain.init root).backwardI m T G = .ok grad ∧ grad.length = (movingJoints root).length ∧
      ∀ (l : ℕ) (t g : Fin B → FM4), T[l]? = some t → G[l]? = some g → ∀ (b : Fin B) (i : Fin 3) (j : Fin 4),
        (t b i.castSucc j).isFinite = false ∨ (g b i.castSucc j).isFinite = false →
        ∀ f ∈ preorder root, Moving f.joint →
          f.joint.jtype = .revolute ∨ (j = 3 ∧ (g b i.castSucc j).isFinite = false) →
          ∃ x, grad[column root f.joint]? = some x ∧ (x b).isFinite = false := by
  obtain ⟨grad, h1, h2, h3⟩ := backwardI_ok m h T G hT
  refine ⟨grad, h1, h2, fun l t g ht hg b i j hn f hf mf hk => ?_⟩
  obtain ⟨jk, e, D, x, -, -, -, k4, k5⟩ := h3 f hf mf
  have hN : (visit root).length = (preorder root).length := by simpa using (visit_perm root).length_eq
  have ht' : (T.map fun t => t b)[l]? = some (t b) := by simp [ht]
  have hg' : (G.map fun t => t b)[l]? = some (g b) := by simp [hg]
  refine ⟨x, k4, ?_⟩
  rw [k5]
  by_cases hr : f.joint.jtype = .revolute
  · simp only [hr, decide_true]
    exact gradEntryI_spread m _ _ (by simp [hT, hG]) (by simp [hT, ancestors_length, hN]) ht' hg' hn
  · obtain ⟨rfl, hk⟩ := hk.resolve_left hr
    simp only [hr, decide_false]
    exact gradEntryI_spread_pris m _ _ (by simp [hG, ancestors_length, hN]) hg' hk

theorem pathI_spoiled_of_joint (m : Ieee) {root : Frame} (h : WF root) {B : ℕ} {th : List (Fin B → Fl)}
    (hth : th.length = (movingJoints root).length) {p : List Frame} {f : Frame} (hp : IsPath root p) (hl : p.getLast? = some f) {b : Fin B}
    (hg : ∃ g ∈ p, Moving g.joint ∧ (colI root th b g.joint).isFinite = false) : Spoiled (pathI m (colI root th b) p) := by
  obtain ⟨d, h1, h2⟩ := C133_visible m root h th hth
  obtain ⟨d', h1', -, h2'⟩ := forwardKinematicsI_ok m h th hth
  rw [h1] at h1'
  obtain rfl := Except.ok.inj h1'
  obtain ⟨S, hS, h3⟩ := h2 p f hp hl
  obtain ⟨S', hS', h4⟩ := h2' p f hp hl
  rw [hS] at hS'
  obtain rfl := Option.some.inj hS'
  rw [← h4]
  exact h3 b hg

/-- **C138** (what the code does instead): if the value of any joint is infinite or NaN, the gradients of all revolute joints of
this row are infinite or NaN, whatever the upstream gradient (even zero). -/
theorem C138_joint_spreads (m : Ieee) (root : Frame) (h : WF root) {B : ℕ} (th : List (Fin B → Fl))
    (hth : th.length = (movingJoints root).length) (G : List (Fin B → FM4)) (hG : G.length = (preorder root).length) :
    ∃ T grad, (Chain.init root).fkTensorI m (Chain.staticI m root) th = .ok T ∧ (Chain.init root).backwardI m T G = .ok grad ∧
      ∀ b, (∃ j ∈ movingJoints root, (colI root th b j).isFinite = false) →
        ∀ f ∈ preorder root, f.joint.jtype = .revolute → ∃ x, grad[column root f.joint]? = some x ∧ (x b).isFinite = false := by
  have hN : (visit root).length = (preorder root).length := by simpa using (visit_perm root).length_eq
  have hfk : (Chain.init root).fkTensorI m (Chain.staticI m root) th = .ok ((List.range (visit root).length).map (poseI m root th)) := by
    apply fkTensorI_ok m h.joints_nodup
    · intro hne; rw [hth]; exact List.length_pos_iff.2 hne
    · simp [broadcastCols, hth]
  obtain ⟨grad, h1, -, h3⟩ := C138_spreads m root h ((List.range (visit root).length).map (poseI m root th)) G (by simp [hN]) hG
  refine ⟨_, grad, hfk, h1, fun b ⟨j, hj, hn⟩ f hf hr => ?_⟩
  obtain ⟨mj, f', hf', rfl⟩ := mem_movingJoints.1 hj
  obtain ⟨l, e, he, hef⟩ := exists_pos hf'
  have hl := (List.getElem?_eq_some_iff.1 he).1
  obtain ⟨pi, p, g1, g2, g3, g4, -⟩ := ancestors_isPath root l _ he
  have hmem : f' ∈ p := List.mem_of_getLast? (by rw [g4, hef])
  have hs := pathI_spoiled_of_joint m h hth g2 g4 (b := b) ⟨f', hmem, mj, hn⟩
  rw [← poseI_path m root th g1 g3 b] at hs
  obtain ⟨j, hj⟩ := hs 0
  have hlG : l < G.length := by omega
  exact h3 l (poseI m root th l) G[l] (by simp [hl]) (List.getElem?_eq_getElem hlG) b 0 j (.inl hj) f hf (by simp [Moving, hr]) (.inl hr)

theorem zipWith_mask_congr (m : Ieee) {row : List ℝ} {xs ys : List (Fin 3 → Fl)} (hl : xs.length = ys.length)
    (hx : ∀ (l : ℕ) (x y : Fin 3 → Fl) (r : ℝ), xs[l]? = some x → ys[l]? = some y → row[l]? = some r → x = y ∨ (r = 0 ∧ ∀ i, (x i).isFinite = true ∧ (y i).isFinite = true)) :
    maskSumI m row xs = maskSumI m row ys := by
  funext i
  unfold maskSumI
  congr 1
  apply List.ext_getElem?
  intro l
  rw [List.getElem?_zipWith, List.getElem?_zipWith]
  rcases hr : row[l]? with _ | r
  · rfl
  rcases h1 : xs[l]? with _ | x
  · have : ys[l]? = none := by rw [List.getElem?_eq_none_iff] at h1 ⊢; omega
    rw [this]
  · have hlt := (List.getElem?_eq_some_iff.1 h1).1
    have h2 : ys[l]? = some ys[l] := List.getElem?_eq_getElem (hl ▸ hlt)
    rw [h2]
    rcases hx l x _ r h1 h2 hr with rfl | ⟨rfl, hf⟩
    · rfl
    · obtain ⟨f1, f2⟩ := hf i
      simp only [Option.some.injEq]
      have : ∀ z : Fl, z.isFinite = true → m.times (.fin 0) z = m.rnd 0 := by
        intro z hz
        cases z <;> simp [Fl.isFinite] at hz
        simp [Ieee.times, AD.mul, Ieee.res]
      rw [this _ f1, this _ f2]

/-- **C138**, what holds: as long as the poses and upstream gradients of the frames that a joint does not move are finite and not
too large, they do not influence the gradient of the joint at all, not even through rounding.  What is missing: the same for infinities,
NaN and products that overflow (`C138_fails`). -/
theorem C138_branches_partial (m : Ieee) (hu : m.u ≤ 1) (root : Frame) (h : WF root) :
    ∃ paths, ListsPaths root (Chain.init root).idxToFrame.get? paths ∧ ∀ {B : ℕ} (T G T' G' : List (Fin B → FM4)),
      T.length = (preorder root).length → G.length = (preorder root).length → T'.length = (preorder root).length →
      G'.length = (preorder root).length →
      ∃ grad grad', (Chain.init root).backwardI m T G = .ok grad ∧ (Chain.init root).backwardI m T' G' = .ok grad' ∧
        ∀ f ∈ preorder root, Moving f.joint → ∃ x x', grad[column root f.joint]? = some x ∧ grad'[column root f.joint]? = some x' ∧
          ∀ (b : Fin B) (A C : ℝ), m.η ≤ A * C → 100 * (A * C) ≤ m.big →
            (∀ (l : ℕ) (p : List Frame) (t g t' g' : Fin B → FM4), paths[l]? = some p → T[l]? = some t → G[l]? = some g →
              T'[l]? = some t' → G'[l]? = some g' → (t b = t' b ∧ g b = g' b) ∨
              (f ∉ p ∧ ∀ i j, Fb A (t b i j) ∧ Fb C (g b i j) ∧ Fb A (t' b i j) ∧ Fb C (g' b i j))) →
            x b = x' b := by
  obtain ⟨paths, hp, hpi⟩ := exists_listsPaths h
  refine ⟨paths, hp, fun {B} T G T' G' hT hG hT' hG' => ?_⟩
  obtain ⟨grad, h1, -, h2⟩ := backwardI_ok m h T G hT
  obtain ⟨grad', h1', -, h2'⟩ := backwardI_ok m h T' G' hT'
  refine ⟨grad, grad', h1, h1', fun f hf mf => ?_⟩
  obtain ⟨jk, e, D, x, k1, k2, k3, k4, k5⟩ := h2 f hf mf
  obtain ⟨jk', e', D', x', k1', k2', k3', k4', k5'⟩ := h2' f hf mf
  obtain rfl : jk' = jk := h.pos_unique k1' k1 (by rw [k2, k2'])
  refine ⟨x, x', k4, k4', fun b A C hη hb hag => ?_⟩
  have hpl : ∀ l, l < (preorder root).length → ∃ p pi, paths[l]? = some p ∧ (ancestors root)[l]? = some pi ∧ (jk' ∈ pi ↔ f ∈ p) := by
    intro l hl
    have hl' : l < paths.length := by rw [hp.1]; exact hl
    obtain ⟨pi, a1, a2⟩ := hpi l _ (List.getElem?_eq_getElem hl')
    exact ⟨_, pi, List.getElem?_eq_getElem hl', a1, mem_path_iff h k1 k2 a2⟩
  -- what the hypothesis says about one frame and its entry in the mask
  have hfr : ∀ (l : ℕ) (t g t' g' : FM4) (r : ℝ), (T.map fun t => t b)[l]? = some t → (G.map fun t => t b)[l]? = some g → (T'.map fun t => t b)[l]? = some t' →
      (G'.map fun t => t b)[l]? = some g' → ((ancestors root).map fun anc => if jk' ∈ anc then (1 : ℝ) else 0)[l]? = some r →
      (t = t' ∧ g = g') ∨ (r = 0 ∧ ∀ i j, Fb A (t i j) ∧ Fb C (g i j) ∧ Fb A (t' i j) ∧ Fb C (g' i j)) := by
    intro l t g t' g' r e1 e2 e3 e4 e5
    rw [List.getElem?_map, Option.map_eq_some_iff] at e1 e2 e3 e4 e5
    obtain ⟨t, e1, rfl⟩ := e1
    obtain ⟨g, e2, rfl⟩ := e2
    obtain ⟨t', e3, rfl⟩ := e3
    obtain ⟨g', e4, rfl⟩ := e4
    obtain ⟨anc, e5, rfl⟩ := e5
    obtain ⟨p, pi, q1, q2, q3⟩ := hpl l (by rw [← hT]; exact (List.getElem?_eq_some_iff.1 e1).1)
    rw [q2] at e5
    obtain rfl := Option.some.inj e5
    rcases hag l p t g t' g' q1 e1 e2 e3 e4 with hc | ⟨hc, hd⟩
    · exact .inl hc
    · exact .inr ⟨if_neg fun hc' => hc (q3.1 hc'), hd⟩
  have hD : D b = D' b := by
    have hlt : jk' < (preorder root).length := by rw [← hT]; exact (List.getElem?_eq_some_iff.1 k3).1
    obtain ⟨p, pi, q1, q2, q3⟩ := hpl jk' hlt
    have hj : jk' ∈ pi := by
      obtain ⟨pi', p', g1, g2, g3, g4, -⟩ := ancestors_isPath root jk' _ k1
      rw [q2] at g1
      obtain rfl := Option.some.inj g1
      exact (mem_path_iff h k1 k2 g3).2 (List.mem_of_getLast? (by rw [g4, k2]))
    have hlG : jk' < G.length := by omega
    have hlG' : jk' < G'.length := by omega
    rcases hag jk' p D _ D' _ q1 k3 (List.getElem?_eq_getElem hlG) k3' (List.getElem?_eq_getElem hlG') with hc | hc
    · exact hc.1
    · exact absurd (q3.1 hj) hc.1
  have hzip : ∀ (F : FM4 → FM4 → Fin 3 → Fl), (∀ t g, (∀ i j, Fb A (t i j)) → (∀ i j, Fb C (g i j)) → ∀ i, (F t g i).isFinite = true) →
      maskSumI m ((ancestors root).map fun anc => if jk' ∈ anc then (1 : ℝ) else 0) (List.zipWith F (T.map fun t => t b) (G.map fun t => t b)) =
      maskSumI m ((ancestors root).map fun anc => if jk' ∈ anc then (1 : ℝ) else 0) (List.zipWith F (T'.map fun t => t b) (G'.map fun t => t b)) := by
    intro F hF
    refine zipWith_mask_congr m (by simp [hT, hG, hT', hG']) fun l x y r e1 e2 e3 => ?_
    rw [List.getElem?_zipWith_eq_some] at e1 e2
    obtain ⟨t, g, a1, a2, rfl⟩ := e1
    obtain ⟨t', g', a3, a4, rfl⟩ := e2
    rcases hfr l t g t' g' r a1 a2 a3 a4 e3 with ⟨rfl, rfl⟩ | ⟨hr, hq⟩
    · exact .inl rfl
    · exact .inr ⟨hr, fun i => ⟨hF _ _ (fun i j => (hq i j).1) (fun i j => (hq i j).2.1) i,
        hF _ _ (fun i j => (hq i j).2.2.1) (fun i j => (hq i j).2.2.2) i⟩⟩
  have hAC : 0 ≤ A * C := m.η_nonneg.trans hη
  have z1 := hzip (tauLinkI m) (by
    intro t g ht hg i
    have hM : ∀ i j, Fb (35 * (A * C)) (dot3I m (rotI t i) (rotI g j)) := fun i j =>
      (dot3I_fb m hu hη zero_le_one (fun k => ht _ _) (fun k => hg _ _) (one_mul _).symm (by linarith)).mono (by linarith)
    have hs : ∀ i j k l, (m.sub (dot3I m (rotI t i) (rotI g j)) (dot3I m (rotI t k) (rotI g l))).isFinite = true := fun i j k l =>
      (Fb.sub' m hu hη (hM i j) (hM k l) (by linarith)).finite
    fin_cases i <;> exact hs ..)
  have z2 := hzip (fun t g => crossI m (posI t) (posI g)) (by
    intro t g ht hg i
    exact (crossI_fb m hu hη zero_le_one (fun k => ht _ _) (fun k => hg _ _) (one_mul _).symm (by linarith) i).finite)
  have z3 : maskSumI m ((ancestors root).map fun anc => if jk' ∈ anc then (1 : ℝ) else 0) ((G.map fun t => t b).map posI) =
      maskSumI m ((ancestors root).map fun anc => if jk' ∈ anc then (1 : ℝ) else 0) ((G'.map fun t => t b).map posI) := by
    refine zipWith_mask_congr m (by simp [hG, hG']) fun l x y r e1 e2 e3 => ?_
    rw [List.getElem?_map, Option.map_eq_some_iff] at e1 e2
    obtain ⟨g, a1, rfl⟩ := e1
    obtain ⟨g', a2, rfl⟩ := e2
    have hl : l < G.length := by simpa using (List.getElem?_eq_some_iff.1 a1).1
    have hl1 : l < T.length := by omega
    have hl2 : l < T'.length := by omega
    rcases hfr l (T[l] b) g (T'[l] b) g' r (by simp [hl1]) a1 (by simp [hl2]) a2 e3 with ⟨-, rfl⟩ | ⟨hr, hq⟩
    · exact .inl rfl
    · exact .inr ⟨hr, fun i => ⟨(hq _ _).2.1.finite, (hq _ _).2.2.2.finite⟩⟩
  rw [k5, k5']
  simp only [gradEntryI, z1, z2, z3, hD]

theorem gradEntryI_fb (m : Ieee) (hu : m.u ≤ 1) {A C N : ℝ} (hA : 1 ≤ A) (hη1 : m.η ≤ 1) (hC : m.η ≤ C) (hN : 1 ≤ N) {T G : List FM4}
    (hT : ∀ t ∈ T, ∀ i j, Fb A (t i j)) (hG : ∀ g ∈ G, ∀ i j, Fb C (g i j)) (hTG : T.length = G.length) (hl : (T.length : ℝ) ≤ N)
    (hp : (1 + m.u) ^ T.length ≤ 2) (hb : 2000000 * N * (A * A * C) ≤ m.big) {D : FM4} (hD : ∀ i j, Fb A (D i j)) {axis : V3}
    (hax : ∀ i, |axis i| ≤ 1) (hA' : 20 * A ≤ m.big) (rev : Bool) {row : List ℝ} (hr : ∀ r ∈ row, |r| ≤ 1) :
    Fb (2000000 * N * (A * A * C)) (gradEntryI m T G D axis rev row) := by
  have hη := m.η_nonneg
  have hC0 : 0 ≤ C := hη.trans hC
  have hη2 : m.η ≤ A * C := hC.trans (le_mul_of_one_le_left hC0 hA)
  have hη3 : m.η ≤ A * A * C := hη2.trans (by rw [mul_assoc]; exact le_mul_of_one_le_left (by positivity) hA)
  obtain ⟨P2, hP2⟩ : ∃ P, P = A * C := ⟨_, rfl⟩
  obtain ⟨P3, hP3⟩ : ∃ P, P = A * A * C := ⟨_, rfl⟩
  rw [← hP2] at hη2
  rw [← hP3] at hη3 hb ⊢
  have hP20 : 0 ≤ P2 := hη.trans hη2
  have hP23 : P2 ≤ P3 := by rw [hP2, hP3, mul_assoc]; exact le_mul_of_one_le_left (by positivity) hA
  have hCP : C ≤ P2 := by rw [hP2]; exact le_mul_of_one_le_left hC0 hA
  have hNP : N * C ≤ N * P2 := mul_le_mul_of_nonneg_left hCP (by linarith)
  have hNP3 : N * P2 ≤ N * P3 := mul_le_mul_of_nonneg_left hP23 (by linarith)
  have hP2N : P2 ≤ N * P2 := le_mul_of_one_le_left hP20 hN
  have hP3N : P3 ≤ N * P3 := le_mul_of_one_le_left (hP20.trans hP23) hN
  have hN0 : 0 ≤ N * P2 := hP20.trans hP2N
  have hz : ∀ i, Fb (35 * A) (dot3I m (rotI D i) fun k => .fin (axis k)) := fun i =>
    (dot3I_fb m hu (P := A) (a := A) (b := 1) (c := 1) (hη1.trans hA) zero_le_one (fun k => hD _ _) (fun k => ⟨_, rfl, hax k⟩) (by ring)
      (by linarith)).mono (by linarith)
  have htau : ∀ x ∈ List.zipWith (tauLinkI m) T G, ∀ i, Fb (141 * P2) (x i) := by
    intro x hx i
    obtain ⟨l, hl⟩ := List.mem_iff_getElem?.1 hx
    rw [List.getElem?_zipWith_eq_some] at hl
    obtain ⟨t, g, e1, e2, rfl⟩ := hl
    have hM : ∀ i j, Fb (35 * P2) (dot3I m (rotI t i) (rotI g j)) := fun i j =>
      (dot3I_fb m hu hη2 (c := 1) zero_le_one (fun k => hT _ (List.mem_of_getElem? e1) _ _) (fun k => hG _ (List.mem_of_getElem? e2) _ _)
        (by rw [hP2, one_mul]) (by linarith)).mono (by linarith)
    have hs : ∀ i j k l, Fb (141 * P2) (m.sub (dot3I m (rotI t i) (rotI g j)) (dot3I m (rotI t k) (rotI g l))) := fun i j k l =>
      (Fb.sub' m hu hη2 (hM i j) (hM k l) (by linarith)).mono (by linarith)
    fin_cases i <;> exact hs ..
  have hcr : ∀ x ∈ List.zipWith (fun t g => crossI m (posI t) (posI g)) T G, ∀ i, Fb (13 * P2) (x i) := by
    intro x hx i
    obtain ⟨l, hl⟩ := List.mem_iff_getElem?.1 hx
    rw [List.getElem?_zipWith_eq_some] at hl
    obtain ⟨t, g, e1, e2, rfl⟩ := hl
    exact (crossI_fb m hu hη2 (c := 1) zero_le_one (fun k => hT _ (List.mem_of_getElem? e1) _ _)
      (fun k => hG _ (List.mem_of_getElem? e2) _ _) (by rw [hP2, one_mul]) (by linarith) i).mono (by linarith)
  have s1 : ∀ i, Fb (568 * N * P2) (maskSumI m row (List.zipWith (tauLinkI m) T G) i) := fun i =>
    (maskSumI_fb m hu hη2 (by norm_num) hr htau (by simpa [← hTG] using hl) (by simpa [← hTG] using hp) (by linarith) hN i).mono (by linarith)
  have s2 : ∀ i, Fb (56 * N * P2) (maskSumI m row (List.zipWith (fun t g => crossI m (posI t) (posI g)) T G) i) := fun i =>
    (maskSumI_fb m hu hη2 (by norm_num) hr hcr (by simpa [← hTG] using hl) (by simpa [← hTG] using hp) (by linarith) hN i).mono (by linarith)
  have s3 : ∀ i, Fb (8 * N * C) (maskSumI m row (G.map posI) i) := fun i =>
    (maskSumI_fb m hu hC (c := 1) zero_le_one hr (by
      intro x hx i
      obtain ⟨g, hg, rfl⟩ := List.mem_map.1 hx
      rw [one_mul]
      exact hG g hg _ _) (by simpa [← hTG] using hl) (by simpa [← hTG] using hp) (by linarith) hN i).mono (by linarith)
  cases rev with
  | false =>
    simp only [gradEntryI, Bool.false_eq_true, if_false]
    exact (dot3I_fb m hu hη2 (c := 280 * N) (by linarith) hz s3 (by rw [hP2]; ring) (by linarith)).mono (by linarith)
  | true =>
    simp only [gradEntryI, if_true]
    have c1 : ∀ i, Fb (69 * N * P2) (crossI m (posI D) (maskSumI m row (G.map posI)) i) := fun i =>
      (crossI_fb m hu hη2 (c := 8 * N) (by linarith) (fun k => hD _ _) s3 (by rw [hP2]; ring) (by linarith) i).mono (by linarith)
    have c2 : ∀ i, Fb (1249 * N * P2) (m.add (maskSumI m row (List.zipWith (tauLinkI m) T G) i)
        (maskSumI m row (List.zipWith (fun t g => crossI m (posI t) (posI g)) T G) i)) := fun i =>
      (Fb.add' m hu hη2 (s1 i) (s2 i) (by linarith)).mono (by linarith)
    have c3 := fun i => (Fb.sub' m hu hη2 (c2 i) (c1 i) (by linarith)).mono (show _ ≤ 2637 * N * P2 by linarith)
    exact (dot3I_fb m hu hη3 (c := 92295 * N) (by linarith) hz c3 (by rw [hP3, hP2]; ring) (by linarith)).mono (by linarith)

/-- **C138**: a row whose poses and upstream gradients are finite and not too large has finite gradients, with an explicit bound. -/
theorem C138_finite (m : Ieee) (hu : m.u ≤ 1) (hη1 : m.η ≤ 1) (root : Frame) (h : WF root)
    (hax : ∀ f ∈ preorder root, Moving f.joint → ∀ i, |f.joint.axis i| ≤ 1) (hp : (1 + m.u) ^ (preorder root).length ≤ 2)
    {B : ℕ} (T G : List (Fin B → FM4)) (hT : T.length = (preorder root).length) (hG : G.length = (preorder root).length) :
    ∃ grad, (Chain.init root).backwardI m T G = .ok grad ∧ grad.length = (movingJoints root).length ∧
      ∀ (b : Fin B) (A C : ℝ), 1 ≤ A → m.η ≤ C → 2000000 * (preorder root).length * (A * A * C) ≤ m.big → 20 * A ≤ m.big →
        (∀ t ∈ T, ∀ i j, Fb A (t b i j)) → (∀ g ∈ G, ∀ i j, Fb C (g b i j)) →
        ∀ f ∈ preorder root, Moving f.joint → ∃ x, grad[column root f.joint]? = some x ∧
          Fb (2000000 * (preorder root).length * (A * A * C)) (x b) := by
  obtain ⟨grad, h1, h2, h3⟩ := backwardI_ok m h T G hT
  refine ⟨grad, h1, h2, fun b A C hA hC hb hA' hTb hGb f hf mf => ?_⟩
  obtain ⟨jk, e, D, x, k1, k2, k3, k4, k5⟩ := h3 f hf mf
  refine ⟨x, k4, ?_⟩
  rw [k5]
  have hpos : 1 ≤ (preorder root).length := List.length_pos_of_mem hf
  refine gradEntryI_fb m hu hA hη1 hC (by exact_mod_cast hpos) ?_ ?_ (by simp [hT, hG]) (by simp [hT]) (by simpa [hT] using hp) hb
    (hTb D (List.mem_of_getElem? k3)) (hax f hf mf) hA' _ ?_
  · intro t ht
    obtain ⟨t', ht', rfl⟩ := List.mem_map.1 ht
    exact hTb t' ht'
  · intro g hg
    obtain ⟨g', hg', rfl⟩ := List.mem_map.1 hg
    exact hGb g' hg'
  · intro r hr
    obtain ⟨a, -, rfl⟩ := List.mem_map.1 hr
    split <;> norm_num

/-- the path to the frame `['e']` of `exTree` -/
theorem exTree_path_e : ∃ p f, IsPath exTree p ∧ p.getLast? = some f ∧ f.name = ['e'] ∧ f ∈ preorder exTree ∧ f.joint.jtype = .revolute ∧
    column exTree f.joint = 2 ∧ p.length = 2 ∧ (∀ g ∈ p, Moving g.joint → column exTree g.joint = 2) ∧
    ∀ val, asStored.reach val p ≤ 10 := by
  refine ⟨_, _, .snoc [] exTree _ .single (List.mem_cons_of_mem _ (List.mem_cons_self ..)), rfl, rfl, ?_, rfl, ?_, rfl, ?_, ?_⟩
  · simp [exTree, preorder, preorderL]
  · simp [column, exTree, movingJoints, preorder, preorderL, Frame.joint, Moving, List.idxOf, List.findIdx_cons]
  · intro g hg hm
    rcases List.mem_cons.1 hg with rfl | hg
    · exact absurd rfl hm
    · obtain rfl := List.mem_singleton.1 hg
      simp [column, exTree, movingJoints, preorder, preorderL, Frame.joint, Moving, List.idxOf, List.findIdx_cons]
  · intro val
    simp [Ideal.reach, asStored, travel, exTree, Frame.link, Frame.joint, vlen, posPart]

/-- **C138** is violated: the slider `j2` of one branch of `exTree` is at infinity; the pose of the frame `['e']` on the other
branch is finite, and so is the upstream gradient, which may even vanish; but the gradient of the joint of `['e']`, which moves no other
frame, is infinite or NaN (`float32`). -/
theorem C138_fails (G : List (Fin 1 → M4)) (hG : G.length = 5) :
    ∃ T grad x f, (Chain.init exTree).fkTensorI float32 (Chain.staticI float32 exTree) [fun _ => .fin 1, fun _ => .pinf, fun _ => .fin 2] = .ok T ∧
      (Chain.init exTree).backwardI float32 T (G.map fun g b => finM (g b)) = .ok grad ∧
      f ∈ preorder exTree ∧ f.name = ['e'] ∧ (∃ l S, (Chain.init exTree).idxToFrame.get? l = some ['e'] ∧ T[l]? = some S ∧
        ∀ i j, (S 0 i j).isFinite = true) ∧
      grad[column exTree f.joint]? = some x ∧ (x 0).isFinite = false := by
  have hlen : ∀ {α : Type} (x y z : α), [x, y, z].length = (movingJoints exTree).length := by
    intros; simp [exTree, movingJoints, preorder, preorderL, Frame.joint, Moving]
  have h5 : (preorder exTree).length = 5 := by simp [exTree, preorder, preorderL]
  obtain ⟨T, grad, h1, h2, h3⟩ := C138_joint_spreads float32 exTree exTree_wf (B := 1) [fun _ => .fin 1, fun _ => .pinf, fun _ => .fin 2]
    (hlen ..) (G.map fun g b => finM (g b)) (by simp [hG, h5])
  obtain ⟨p, f, hp, hl, hn, hf, hr, hc, hp2, hcol, hreach⟩ := exTree_path_e
  have hinf : ∃ j ∈ movingJoints exTree, (colI exTree (B := 1) [fun _ => .fin 1, fun _ => .pinf, fun _ => .fin 2] 0 j).isFinite = false := by
    have hk : 1 < (movingJoints exTree).length := by rw [← hlen 0 0 0]; norm_num
    obtain ⟨f', hf', mf', hc', hj'⟩ := column_frame exTree_wf hk
    refine ⟨f'.joint, List.mem_of_getElem? hj', ?_⟩
    simp [colI, hc', Fl.isFinite]
  obtain ⟨x, hx, hx'⟩ := h3 0 hinf f hf hr
  refine ⟨T, grad, x, f, h1, h2, hf, hn, ?_, hx, hx'⟩
  -- the pose of the frame
  have hfk := fkTensorI_ok float32 exTree_wf.joints_nodup (B := 1) [fun _ => .fin 1, fun _ => .pinf, fun _ => .fin 2]
    [fun _ => .fin 1, fun _ => .pinf, fun _ => .fin 2] (fun _ => by simp) (by rw [← hlen 0 0 0]; simp [broadcastCols])
  rw [h1] at hfk
  obtain rfl := Except.ok.inj hfk
  obtain ⟨l, e, pi, a1, a2, a3, a4⟩ := isPath_ancestors exTree hp
  have hll := (List.getElem?_eq_some_iff.1 a1).1
  have hee : e.1 = f := by rw [hl] at a4; exact (Option.some.inj a4).symm
  refine ⟨l, poseI float32 exTree [fun _ => .fin 1, fun _ => .pinf, fun _ => .fin 2] l, ?_, by simp [hll], ?_⟩
  · rw [exTree_wf.idxToFrame a1, hee, hn]
  obtain ⟨d, d', b1, b2, -, b3⟩ := C133_formats 24 (-126) 127 (by norm_num) (by norm_num) (by norm_num) exTree exTree_wf
    exTree_rigid (B := 1) [fun _ => 1, fun _ => 3, fun _ => 2] (hlen ..)
  obtain ⟨S, S', -, b5, b6⟩ := b3 p f hp hl (by rw [hp2]; norm_num)
  obtain ⟨Y, hY, -⟩ := b6 0 (by
    rw [hp2]
    refine le_trans (b := (1024 : ℝ)) ?_ ?_
    · have := hreach (colVal exTree (B := 1) [fun _ => 1, fun _ => 3, fun _ => 2] 0)
      push_cast
      linarith
    · rw [show (1024 : ℝ) = 2 ^ (10 : ℤ) by norm_num]
      exact zpow_le_zpow_right₀ (by norm_num) (by norm_num))
  obtain ⟨d1, d2, c1, c2, c3⟩ := C133_isolated float32 exTree exTree_wf (B := 1) (B' := 1)
    [fun _ => .fin 1, fun _ => .pinf, fun _ => .fin 2] [fun _ => .fin 1, fun _ => .fin 3, fun _ => .fin 2] (hlen ..) (hlen ..)
  obtain rfl : d' = d2 := by
    have : forwardKinematicsI float32 exTree (B := 1) [fun _ => .fin 1, fun _ => .fin 3, fun _ => .fin 2] = .ok d' := b2
    rw [c2] at this; exact (Except.ok.inj this).symm
  obtain ⟨R, R', c4, c5, c6⟩ := c3 p f hp hl
  rw [b5] at c5
  obtain rfl := Option.some.inj c5
  obtain ⟨d3, e1, -, e2⟩ := forwardKinematicsI_ok float32 exTree_wf (B := 1) [fun _ => .fin 1, fun _ => .pinf, fun _ => .fin 2] (hlen ..)
  rw [c1] at e1
  obtain rfl := Except.ok.inj e1
  obtain ⟨R1, e3, e4⟩ := e2 p f hp hl
  rw [c4] at e3
  obtain rfl := Option.some.inj e3
  intro i j
  rw [poseI_path float32 exTree _ a2 a3 0, ← e4 0, c6 0 0 fun g hg hm => by simp [colI, hcol g hg hm], hY]
  rfl

theorem float32_consts : float32.u ≤ 1 ∧ float32.η ≤ 1 ∧ float32.big = 2 ^ 123 ∧ (1 + float32.u) ^ 5 ≤ 2 := by
  have hu : float32.u = 1 / 2 ^ 24 := by
    show (2 : ℝ) ^ (-((24 : ℕ) : ℤ)) = _
    rw [zpow_neg, zpow_natCast, one_div]
  have hη : float32.η = 1 / 2 ^ 150 := by
    show (2 : ℝ) ^ ((-126 : ℤ) - ((24 : ℕ) : ℤ)) = _
    norm_num
  have hb : float32.big = 2 ^ 123 := by
    show (2 : ℝ) ^ ((127 : ℤ) - 4) = _
    norm_num
  rw [hu, hη, hb]
  norm_num

theorem exTree_axes : ∀ f ∈ preorder exTree, Moving f.joint → ∀ i, |f.joint.axis i| ≤ 1 := by
  intro f hf mf i
  have h := exTree_rigid.axis f hf mf
  unfold IsUnitV at h
  rw [← sq_le_one_iff_abs_le_one]
  have := sq_nonneg (f.joint.axis 0); have := sq_nonneg (f.joint.axis 1); have := sq_nonneg (f.joint.axis 2)
  fin_cases i
  · show f.joint.axis 0 ^ 2 ≤ 1; linarith
  · show f.joint.axis 1 ^ 2 ≤ 1; linarith
  · show f.joint.axis 2 ^ 2 ≤ 1; linarith

/-- `C138_finite` for `exTree` in `float32`: entries up to a million -/
example (T G : List (Fin 1 → M4)) (hT : T.length = 5) (hG : G.length = 5) (h1 : ∀ t ∈ T, ∀ i j, |t 0 i j| ≤ 1000000)
    (h2 : ∀ g ∈ G, ∀ i j, |g 0 i j| ≤ 1000000) :
    ∃ grad, (Chain.init exTree).backwardI float32 (T.map fun t b => finM (t b)) (G.map fun g b => finM (g b)) = .ok grad ∧
      ∀ f ∈ preorder exTree, Moving f.joint → ∃ x, grad[column exTree f.joint]? = some x ∧ (x 0).isFinite = true := by
  obtain ⟨c1, c2, c3, c4⟩ := float32_consts
  have h5 : (preorder exTree).length = 5 := by simp [exTree, preorder, preorderL]
  obtain ⟨grad, k1, -, k2⟩ := C138_finite float32 c1 c2 exTree exTree_wf exTree_axes (by rw [h5]; exact c4)
    (T.map fun t b => finM (t b)) (G.map fun g b => finM (g b)) (by simp [hT, h5]) (by simp [hG, h5])
  refine ⟨grad, k1, fun f hf mf => ?_⟩
  obtain ⟨x, k3, k4⟩ := k2 0 1000000 1000000 (by norm_num) (by linarith) (by rw [c3, h5]; norm_num) (by rw [c3]; norm_num)
    (by
      intro t ht i j
      obtain ⟨t', ht', rfl⟩ := List.mem_map.1 ht
      exact ⟨_, rfl, h1 t' ht' i j⟩)
    (by
      intro t ht i j
      obtain ⟨t', ht', rfl⟩ := List.mem_map.1 ht
      exact ⟨_, rfl, h2 t' ht' i j⟩) f hf mf
  exact ⟨x, k3, k4.finite⟩

/-- `C138_branches_partial` for `exTree` in `float32`: upstream gradients of frames that a joint does not move, up to a million -/
example : ∃ paths, ListsPaths exTree (Chain.init exTree).idxToFrame.get? paths ∧
    ∀ T G G' : List (Fin 1 → M4), T.length = 5 → G.length = 5 → G'.length = 5 → (∀ t ∈ T, ∀ i j, |t 0 i j| ≤ 1000000) →
      (∀ g ∈ G ++ G', ∀ i j, |g 0 i j| ≤ 1000000) → ∀ f ∈ preorder exTree, Moving f.joint →
      (∀ (l : ℕ) (p : List Frame), paths[l]? = some p → f ∈ p → G[l]? = G'[l]?) →
      ∃ grad grad' x x', (Chain.init exTree).backwardI float32 (T.map fun t b => finM (t b)) (G.map fun g b => finM (g b)) = .ok grad ∧
        (Chain.init exTree).backwardI float32 (T.map fun t b => finM (t b)) (G'.map fun g b => finM (g b)) = .ok grad' ∧
        grad[column exTree f.joint]? = some x ∧ grad'[column exTree f.joint]? = some x' ∧ x 0 = x' 0 := by
  obtain ⟨c1, c2, c3, c4⟩ := float32_consts
  have h5 : (preorder exTree).length = 5 := by simp [exTree, preorder, preorderL]
  obtain ⟨paths, hp, k⟩ := C138_branches_partial float32 c1 exTree exTree_wf
  refine ⟨paths, hp, fun T G G' hT hG hG' bT bG f hf mf hag => ?_⟩
  obtain ⟨grad, grad', k1, k2, k3⟩ := k (T.map fun t b => finM (t b)) (G.map fun g b => finM (g b)) (T.map fun t b => finM (t b))
    (G'.map fun g b => finM (g b)) (by simp [hT, h5]) (by simp [hG, h5]) (by simp [hT, h5]) (by simp [hG', h5])
  obtain ⟨x, x', k4, k5, k6⟩ := k3 f hf mf
  refine ⟨grad, grad', x, x', k1, k2, k4, k5, k6 0 1000000 1000000 (by linarith) (by rw [c3]; norm_num) ?_⟩
  intro l p t g t' g' e0 e1 e2 e3 e4
  obtain rfl : t = t' := Option.some.inj (e1.symm.trans e3)
  rw [List.getElem?_map, Option.map_eq_some_iff] at e1 e2 e4
  obtain ⟨t, e1, rfl⟩ := e1
  obtain ⟨g, e2, rfl⟩ := e2
  obtain ⟨g', e4, rfl⟩ := e4
  by_cases hfp : f ∈ p
  · left
    have := hag l p e0 hfp
    rw [e2, e4] at this
    obtain rfl := Option.some.inj this
    exact ⟨rfl, rfl⟩
  · right
    have m1 := List.mem_of_getElem? e1
    have m2 := List.mem_of_getElem? e2
    have m3 := List.mem_of_getElem? e4
    exact ⟨hfp, fun i j => ⟨⟨_, rfl, bT t m1 i j⟩, ⟨_, rfl, bG g (by simp [m2]) i j⟩, ⟨_, rfl, bT t m1 i j⟩, ⟨_, rfl, bG g' (by simp [m3]) i j⟩⟩⟩

end PK
