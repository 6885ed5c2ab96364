import Verif.Lemmas.Smooth
import Verif.Props.Gradient
import Verif.Model.Autograd

/-!
# Gradients through forward kinematics in terms of one smooth map
-/

namespace PK
open Spec Matrix

/-! ## the tensor of all poses as a function of the rows of joint values -/

/-- the rows of a joint tensor -/
noncomputable def rowsOf {B : ℕ} (n : ℕ) (th : List (Fin B → ℝ)) : Fin B → Fin n → ℝ := fun b => rowOf n th b

/-- unit vector of one joint value -/
def unitQ {B n : ℕ} (b : Fin B) (k : Fin n) : Fin B → Fin n → ℝ := Pi.single b (Pi.single k 1)

theorem getD_setEntry {B : ℕ} (th : List (Fin B → ℝ)) (k i : ℕ) (hk : k < th.length) (b b' : Fin B) (x : ℝ) :
    ((setEntry th k b x).getD i fun _ => 0) b' = if k = i ∧ b' = b then x else (th.getD i fun _ => 0) b' := by
  unfold setEntry
  rw [List.getD, List.getElem?_modify]
  by_cases h : k = i
  · subst h
    rw [List.getElem?_eq_getElem hk]
    by_cases hb : b' = b
    · subst hb; simp
    · simp [hb, List.getD, List.getElem?_eq_getElem hk]
  · simp [h, List.getD]

theorem rowsOf_setEntry {B n : ℕ} (th : List (Fin B → ℝ)) (hth : th.length = n) (k : Fin n) (b : Fin B) (x : ℝ) :
    rowsOf n (setEntry th k b x) = rowsOf n th + (x - (th.getD k fun _ => 0) b) • unitQ b k := by
  funext b' i
  simp only [rowsOf, rowOf, getD_setEntry th k i (by rw [hth]; exact k.isLt), Pi.add_apply, Pi.smul_apply, unitQ, smul_eq_mul]
  by_cases hb : b' = b
  · subst hb
    by_cases hi : k = i
    · subst hi; simp
    · have : (k : ℕ) ≠ i := fun h => hi (Fin.ext h)
      simp [this, Pi.single_apply, Ne.symm hi]
  · simp [hb, Pi.single_apply]

/-- derivative of a function of all rows with respect to one entry of the joint tensor -/
theorem hasDerivAt_rows {B n : ℕ} {A : Type} [NormedAddCommGroup A] [NormedSpace ℝ A] {f : (Fin B → Fin n → ℝ) → A}
    (th : List (Fin B → ℝ)) (hth : th.length = n) (hf : DifferentiableAt ℝ f (rowsOf n th)) (k : Fin n) (b : Fin B) :
    HasDerivAt (fun x => f (rowsOf n (setEntry th k b x))) (fderiv ℝ f (rowsOf n th) (unitQ b k))
      ((th.getD k fun _ => 0) b) := by
  have hl : HasDerivAt (fun x : ℝ => rowsOf n (setEntry th k b x)) (unitQ b k) ((th.getD k fun _ => 0) b) := by
    simp only [rowsOf_setEntry th hth k b]
    simpa using (((hasDerivAt_id ((th.getD k fun _ => 0) b)).sub_const ((th.getD k fun _ => 0) b)).smul_const
      (unitQ b k)).const_add (rowsOf n th)
  have h0 : rowsOf n (setEntry th k b ((th.getD k fun _ => 0) b)) = rowsOf n th := by rw [setEntry_self]
  exact hf.hasFDerivAt.comp_hasDerivAt_of_eq _ hl h0.symm

theorem exists_entry {root : Frame} {n : ℕ} (l : Fin (visit root).length) (i j : Fin 4) :
    ∃ E : (Fin n → ℝ) → ℝ, (∀ k : WithTop ℕ∞, ContDiff ℝ k E) ∧
      ∀ (B : ℕ) (th : List (Fin B → ℝ)), th.length = n → ∀ b, poseAt root th l b i j = E (rowOf n th b) := by
  obtain ⟨pi, p, g1, g2, g3, g4, -⟩ := ancestors_isPath root l _ (List.getElem?_eq_getElem l.isLt)
  refine ⟨fun q => pathT (fun j => look q (column root j)) p i j, fun k => contDiff_pathT p i j, fun B th hth b => ?_⟩
  rw [poseAt_path root th g1 g3 b]
  congr 1
  congr 1
  funext j
  exact colVal_look th hth b j

/-- forward kinematics as one smooth map -/
theorem exists_smooth (root : Frame) (h : WF root) {N : ℕ} (hN : N = (preorder root).length) {n : ℕ}
    (hn : n = (movingJoints root).length) (B : ℕ) :
    ∃ Φ : (Fin B → Fin n → ℝ) → Tens N B, (∀ k : WithTop ℕ∞, ContDiff ℝ k Φ) ∧
      ∀ th : List (Fin B → ℝ), th.length = n → ∃ T, (Chain.init root).fkTensor th = .ok T ∧ T.length = N ∧
        T = tensorOf (Φ (rowsOf n th)) ∧ entriesOf N T = Φ (rowsOf n th) := by
  have hv : N = (visit root).length := hN.trans (by simpa using (visit_perm root).length_eq.symm)
  subst hv
  choose E hE hT using fun (l : Fin (visit root).length) (i j : Fin 4) => exists_entry (n := n) l i j
  refine ⟨fun q l b i j => E l i j (q b), fun k => ?_, fun th hth => ?_⟩
  · refine contDiff_pi.2 fun l => contDiff_pi.2 fun b => contDiff_pi.2 fun i => contDiff_pi.2 fun j => ?_
    exact (hE l i j k).comp (contDiff_apply ℝ (Fin n → ℝ) b)
  · have hfk : (Chain.init root).fkTensor th = .ok ((List.range (visit root).length).map (poseAt root th)) := by
      apply fkTensor_ok h.joints_nodup
      · intro hne; rw [hth, hn]; exact List.length_pos_iff.2 hne
      · simp [broadcastCols, hth, hn]
    refine ⟨_, hfk, by simp, ?_, ?_⟩
    · apply List.ext_getElem
      · simp [tensorOf]
      · intro l h1 h2
        simp only [List.length_map, List.length_range] at h1
        simp only [List.getElem_map, List.getElem_range, tensorOf, List.getElem_ofFn]
        funext b
        ext i j
        exact hT ⟨l, h1⟩ i j B th hth b
    · funext l b i j
      simp only [entriesOf, List.getD, List.getElem?_map, List.getElem?_range l.isLt, Option.map_some, Option.getD_some]
      exact hT l i j B th hth b

/-! ## pairing -/

theorem tensor_sum_unit {N B : ℕ} (V : Tens N B) : V = ∑ l, ∑ b, ∑ i, ∑ j, V l b i j • unitAt l b i j := by
  funext l b i j
  simp only [Finset.sum_apply, Pi.smul_apply, unitAt, smul_eq_mul]
  rw [Finset.sum_eq_single l, Finset.sum_eq_single b, Finset.sum_eq_single i, Finset.sum_eq_single j] <;>
    simp +contextual [Pi.single_apply, Ne.symm]
  all_goals
    intro x hx
    have hx' := fun h => hx (Eq.symm h)
    simp [hx']

theorem clm_sum_unit {N B : ℕ} (A : Tens N B →L[ℝ] ℝ) (V : Tens N B) :
    ∑ l, ∑ b, ∑ i, ∑ j, A (unitAt l b i j) * V l b i j = A V := by
  conv_rhs => rw [tensor_sum_unit V]
  simp only [map_sum, map_smul, smul_eq_mul, mul_comm]

theorem weighted_tensorOf {N B : ℕ} (X Y : Tens N B) :
    weighted (tensorOf X) (tensorOf Y) = ∑ l, ∑ b, ∑ i, ∑ j, X l b i j * Y l b i j := by
  unfold weighted tensorOf
  have : List.zipWith (fun (g t : Fin B → M4) => ∑ b, ∑ i, ∑ j, g b i j * t b i j)
      (List.ofFn fun l b => Matrix.of (X l b)) (List.ofFn fun l b => Matrix.of (Y l b)) =
      List.ofFn fun l => ∑ b, ∑ i, ∑ j, X l b i j * Y l b i j := by
    apply List.ext_getElem
    · simp
    · intro i h1 h2; simp
  rw [this, List.sum_ofFn]

/-- what the backward pass returns, in terms of the smooth map -/
theorem backward_pair {root : Frame} (h : WF root) (hr : RigidTree root) {N : ℕ} (hN : N = (preorder root).length) {n B : ℕ}
    (hn : n = (movingJoints root).length) {Φ : (Fin B → Fin n → ℝ) → Tens N B} (hΦ : ∀ k : WithTop ℕ∞, ContDiff ℝ k Φ)
    (hT : ∀ th : List (Fin B → ℝ), th.length = n → ∃ T, (Chain.init root).fkTensor th = .ok T ∧ T.length = N ∧
        T = tensorOf (Φ (rowsOf n th)) ∧ entriesOf N T = Φ (rowsOf n th))
    (th : List (Fin B → ℝ)) (hth : th.length = n) (G : Tens N B) :
    ∃ g, (Chain.init root).backward (tensorOf (Φ (rowsOf n th))) (tensorOf G) = .ok g ∧ g.length = n ∧
      ∀ (k : Fin n) b, (g.getD k fun _ => 0) b =
        ∑ l, ∑ b', ∑ i, ∑ j, G l b' i j * fderiv ℝ Φ (rowsOf n th) (unitQ b k) l b' i j := by
  obtain ⟨T, g, e1, e2, e3, e4⟩ := C16_backward_is_gradient root h hr th (hth.trans hn) (tensorOf G) (by simp [tensorOf, hN])
  obtain ⟨T', t1, -, t2, -⟩ := hT th hth
  rw [t1] at e1
  obtain rfl := Except.ok.inj e1
  rw [t2] at e2
  refine ⟨g, e2, e3.trans hn.symm, fun k b => ?_⟩
  obtain ⟨loss, l1, l2⟩ := e4 k b (hn ▸ k.isLt)
  have hloss : ∀ x, loss x = ∑ l, ∑ b', ∑ i, ∑ j, G l b' i j * Φ (rowsOf n (setEntry th k b x)) l b' i j := by
    intro x
    obtain ⟨T1, a1, a2⟩ := l1 x
    obtain ⟨T2, c1, -, c2, -⟩ := hT (setEntry th k b x) (by rw [setEntry_length, hth])
    rw [c1] at a1
    obtain rfl := Except.ok.inj a1
    rw [a2, c2, weighted_tensorOf]
  have hd := hasDerivAt_rows th hth ((hΦ 1).differentiable one_ne_zero (rowsOf n th)) k b
  have hd' : HasDerivAt loss (∑ l, ∑ b', ∑ i, ∑ j, G l b' i j * fderiv ℝ Φ (rowsOf n th) (unitQ b k) l b' i j)
      ((th.getD k fun _ => 0) b) := by
    rw [funext hloss]
    refine HasDerivAt.fun_sum fun l _ => HasDerivAt.fun_sum fun b' _ => HasDerivAt.fun_sum fun i _ =>
      HasDerivAt.fun_sum fun j _ => HasDerivAt.const_mul _ ?_
    exact hasDerivAt_pi.1 (hasDerivAt_pi.1 (hasDerivAt_pi.1 (hasDerivAt_pi.1 hd l) b') i) j
  exact l2.unique hd'

/-- with the gradient of a loss -/
theorem backward_gradOf {root : Frame} (h : WF root) (hr : RigidTree root) {N : ℕ} (hN : N = (preorder root).length) {n B : ℕ}
    (hn : n = (movingJoints root).length) {Φ : (Fin B → Fin n → ℝ) → Tens N B} (hΦ : ∀ k : WithTop ℕ∞, ContDiff ℝ k Φ)
    (hT : ∀ th : List (Fin B → ℝ), th.length = n → ∃ T, (Chain.init root).fkTensor th = .ok T ∧ T.length = N ∧
        T = tensorOf (Φ (rowsOf n th)) ∧ entriesOf N T = Φ (rowsOf n th))
    (th : List (Fin B → ℝ)) (hth : th.length = n) (L : Tens N B → ℝ) (X : Tens N B) :
    ∃ g, (Chain.init root).backward (tensorOf (Φ (rowsOf n th))) (gradOf L X) = .ok g ∧ g.length = n ∧
      ∀ (k : Fin n) b, (g.getD k fun _ => 0) b = fderiv ℝ L X (fderiv ℝ Φ (rowsOf n th) (unitQ b k)) := by
  obtain ⟨g, g1, g2, g3⟩ := backward_pair h hr hN hn hΦ hT th hth (fun l b i j => fderiv ℝ L X (unitAt l b i j))
  exact ⟨g, g1, g2, fun k b => by rw [g3, clm_sum_unit]⟩

end PK
