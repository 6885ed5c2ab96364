import Verif.Lemmas.Autograd
import Mathlib.Topology.Algebra.Module.FiniteDimension

/-!
# C108: gradients of nonlinear losses of poses and Jacobians, and second derivatives
-/

namespace PK
open Spec Matrix

/-- the loss as a function of the joint values; 0 when forward kinematics raises (it does not, see `C108_gradient`) -/
noncomputable def lossAt (c : Chain) {N B : ℕ} (L : Tens N B → ℝ) (th : List (Fin B → ℝ)) : ℝ :=
  match c.fkTensor th with
  | .ok T => L (entriesOf N T)
  | .error _ => 0

/-- entry `[b, k]` of a returned gradient; 0 if the call raised -/
def entryOf {B : ℕ} (g : Except Err (List (Fin B → ℝ))) (k : ℕ) (b : Fin B) : ℝ :=
  match g with
  | .ok g => (g.getD k fun _ => 0) b
  | .error _ => 0

/-- C108: for every loss of the tensor of all poses that is differentiable at the computed poses, the backward pass
returns a gradient of the shape of `th`, and every entry of it is the derivative of the loss with respect to that joint
value. -/
theorem C108_gradient (root : Frame) (h : WF root) (hr : RigidTree root) {N B : ℕ} (hN : N = (preorder root).length)
    (L : Tens N B → ℝ) (th : List (Fin B → ℝ)) (hth : th.length = (movingJoints root).length) :
    ∃ T g, (Chain.init root).fkTensor th = .ok T ∧ (Chain.init root).grad L th = .ok g ∧
      g.length = (movingJoints root).length ∧
      (DifferentiableAt ℝ L (entriesOf N T) → ∀ (k : ℕ) (b : Fin B), k < (movingJoints root).length →
        HasDerivAt (fun x => lossAt (Chain.init root) L (setEntry th k b x)) ((g.getD k fun _ => 0) b)
          ((th.getD k fun _ => 0) b)) := by
  obtain ⟨Φ, hΦ, hT⟩ := exists_smooth root h hN rfl B
  obtain ⟨T, t1, t2, t3, t4⟩ := hT th hth
  obtain ⟨g, g1, g2, g3⟩ := backward_gradOf h hr hN rfl hΦ hT th hth L (Φ (rowsOf _ th))
  refine ⟨T, g, t1, ?_, g2, ?_⟩
  · rw [Chain.grad, t1, ok_bind, t4, t3]; exact g1
  intro hL k b hk
  rw [t4] at hL
  have hΦd := (hΦ 1).differentiable one_ne_zero (rowsOf _ th)
  have hd := hasDerivAt_rows (f := L ∘ Φ) th hth (hL.comp _ hΦd) ⟨k, hk⟩ b
  rw [fderiv_comp _ hL hΦd] at hd
  rw [g3 ⟨k, hk⟩ b]
  refine hd.congr_of_eventuallyEq (Filter.Eventually.of_forall fun x => ?_)
  obtain ⟨T', t1', -, -, t4'⟩ := hT (setEntry th k b x) (by rw [setEntry_length, hth])
  simp only [lossAt, t1', t4', Function.comp_apply]

/-- the hypotheses hold for `exTree`, any batch and any loss; the sum of the squares of all entries is differentiable -/
example (th : List (Fin 3 → ℝ)) (hth : th.length = 3) : ∃ T g, (Chain.init exTree).fkTensor th = .ok T ∧
    (Chain.init exTree).grad (fun X : Tens 5 3 => ∑ l, ∑ b, ∑ i, ∑ j, X l b i j ^ 2) th = .ok g ∧
    HasDerivAt (fun x => lossAt (Chain.init exTree) (fun X : Tens 5 3 => ∑ l, ∑ b, ∑ i, ∑ j, X l b i j ^ 2) (setEntry th 1 2 x))
      ((g.getD 1 fun _ => 0) 2) ((th.getD 1 fun _ => 0) 2) := by
  have hn : (movingJoints exTree).length = 3 := by simp [movingJoints, exTree, preorder, preorderL, Frame.joint, Moving]
  obtain ⟨T, g, h1, h2, -, h4⟩ := C108_gradient exTree exTree_wf exTree_rigid (N := 5) (by simp [exTree, preorder, preorderL])
    (fun X : Tens 5 3 => ∑ l, ∑ b, ∑ i, ∑ j, X l b i j ^ 2) th (hth.trans hn.symm)
  exact ⟨T, g, h1, h2, h4 (by fun_prop) 1 2 (by omega)⟩

/-- C108: as a function of all joint values of the batch, every loss of the poses is as smooth as the loss itself:
derivatives of every order exist, which is what `analytical_grad=False` is for. -/
theorem C108_smooth (root : Frame) (h : WF root) {N B : ℕ} (hN : N = (preorder root).length) (L : Tens N B → ℝ)
    (m : WithTop ℕ∞) (hL : ContDiff ℝ m L) :
    ContDiff ℝ m fun q : Fin B → Fin (movingJoints root).length → ℝ =>
      lossAt (Chain.init root) L (List.ofFn fun k b => q b k) := by
  obtain ⟨Φ, hΦ, hT⟩ := exists_smooth root h hN rfl B
  have : (fun q : Fin B → Fin (movingJoints root).length → ℝ => lossAt (Chain.init root) L (List.ofFn fun k b => q b k)) =
      L ∘ Φ := by
    funext q
    obtain ⟨T', t1', -, -, t4'⟩ := hT (List.ofFn fun k b => q b k) (by simp)
    have : rowsOf (movingJoints root).length (List.ofFn fun k b => q b k) = q := by
      funext b k; simp [rowsOf, rowOf, List.getD]
    simp only [lossAt, t1', t4', Function.comp_apply, this]
  rw [this]
  exact hL.comp (hΦ m)

/-- C108 (second derivatives, for losses with two continuous derivatives): the derivative of the returned gradient
entry `[b, k]` with respect to `th[b', k']` is the second derivative of the loss.  Two passes with `create_graph=True`
report it except for one term: the second derivative of the sum of all pose entries weighted by the gradient of the
loss with respect to the poses.
Missing for the full claim ("what is reported is the second derivative"): it is false, see `C108_second_order_fails`. -/
theorem C108_second_order_partial (root : Frame) (h : WF root) (hr : RigidTree root) {N B : ℕ} (hN : N = (preorder root).length)
    (L : Tens N B → ℝ) (hL : ContDiff ℝ 2 L) (th : List (Fin B → ℝ)) (hth : th.length = (movingJoints root).length)
    (k k' : ℕ) (b b' : Fin B) (hk : k < (movingJoints root).length) (hk' : k' < (movingJoints root).length) :
    ∃ T H curvature, (Chain.init root).fkTensor th = .ok T ∧ (Chain.init root).grad2 L th k b = .ok H ∧
      H.length = (movingJoints root).length ∧
      HasDerivAt (fun x => entryOf ((Chain.init root).grad L (setEntry th k' b' x)) k b)
        ((H.getD k' fun _ => 0) b' + curvature) ((th.getD k' fun _ => 0) b') ∧
      HasDerivAt (fun x => entryOf (((Chain.init root).fkTensor (setEntry th k' b' x)).bind fun T' =>
        (Chain.init root).backward T' (gradOf L (entriesOf N T))) k b) curvature ((th.getD k' fun _ => 0) b') := by
  obtain ⟨Φ, hΦ, hT⟩ := exists_smooth root h hN rfl B
  obtain ⟨T, t1, t2, t3, t4⟩ := hT th hth
  set q0 := rowsOf (movingJoints root).length th with hq0
  set e := unitQ b (⟨k, hk⟩ : Fin (movingJoints root).length) with he
  set e' := unitQ b' (⟨k', hk'⟩ : Fin (movingJoints root).length) with he'
  -- the first gradient, everywhere
  have hgrad : ∀ th' : List (Fin B → ℝ), th'.length = (movingJoints root).length →
      entryOf ((Chain.init root).grad L th') k b =
        fderiv ℝ L (Φ (rowsOf _ th')) (fderiv ℝ Φ (rowsOf _ th') e) := by
    intro th' hth'
    obtain ⟨T', t1', -, t3', t4'⟩ := hT th' hth'
    obtain ⟨g, g1, g2, g3⟩ := backward_gradOf h hr hN rfl hΦ hT th' hth' L (Φ (rowsOf _ th'))
    rw [Chain.grad, t1', ok_bind, t4', t3', g1]
    exact g3 ⟨k, hk⟩ b
  have hcurv : ∀ th' : List (Fin B → ℝ), th'.length = (movingJoints root).length →
      entryOf (((Chain.init root).fkTensor th').bind fun T' => (Chain.init root).backward T' (gradOf L (entriesOf N T))) k b =
        fderiv ℝ L (Φ q0) (fderiv ℝ Φ (rowsOf _ th') e) := by
    intro th' hth'
    obtain ⟨T', t1', -, t3', -⟩ := hT th' hth'
    obtain ⟨g, g1, g2, g3⟩ := backward_gradOf h hr hN rfl hΦ hT th' hth' L (Φ q0)
    rw [t1', t4, t3']
    show entryOf ((Chain.init root).backward _ _) k b = _
    rw [g1]
    exact g3 ⟨k, hk⟩ b
  -- the recorded first gradient
  have hentry : (Chain.init root).gradEntry L T k b = fun X => fderiv ℝ L X (fderiv ℝ Φ q0 e) := by
    funext X
    obtain ⟨g, g1, g2, g3⟩ := backward_gradOf h hr hN rfl hΦ hT th hth L X
    rw [Chain.gradEntry, t3, g1]
    exact g3 ⟨k, hk⟩ b
  obtain ⟨H, H1, H2, H3⟩ := backward_gradOf h hr hN rfl hΦ hT th hth (fun X => fderiv ℝ L X (fderiv ℝ Φ q0 e)) (Φ q0)
  have hLd : Differentiable ℝ (fderiv ℝ L) := (hL.fderiv_right (m := 1) (by norm_num)).differentiable one_ne_zero
  have hΦ1 : Differentiable ℝ Φ := (hΦ 1).differentiable one_ne_zero
  have hΦd : Differentiable ℝ (fderiv ℝ Φ) := ((hΦ 2).fderiv_right (m := 1) (by norm_num)).differentiable one_ne_zero
  have hV : Differentiable ℝ fun q => fderiv ℝ Φ q e := fun q => (hΦd q).clm_apply (differentiableAt_const e)
  refine ⟨T, H, fderiv ℝ L (Φ q0) (fderiv ℝ (fun q => fderiv ℝ Φ q e) q0 e'), t1, ?_, H2, ?_, ?_⟩
  · rw [Chain.grad2, t1, ok_bind, hentry, t4, t3]; exact H1
  · have hf : HasFDerivAt (fun q => fderiv ℝ L (Φ q) (fderiv ℝ Φ q e)) _ q0 :=
      (((hLd (Φ q0)).hasFDerivAt.comp q0 (hΦ1 q0).hasFDerivAt)).clm_apply (hV q0).hasFDerivAt
    have hd := hasDerivAt_rows th hth hf.differentiableAt ⟨k', hk'⟩ b'
    rw [hf.fderiv] at hd
    rw [H3 ⟨k', hk'⟩ b']
    have hX : fderiv ℝ (fun X => fderiv ℝ L X (fderiv ℝ Φ q0 e)) (Φ q0) (fderiv ℝ Φ q0 e') =
        fderiv ℝ (fderiv ℝ L) (Φ q0) (fderiv ℝ Φ q0 e') (fderiv ℝ Φ q0 e) := by
      rw [fderiv_clm_apply (hLd _) (differentiableAt_const _)]
      simp
    rw [hX]
    have hd2 := hd.congr_of_eventuallyEq (Filter.Eventually.of_forall fun x => hgrad _ (by rw [setEntry_length, hth]))
    rw [add_comm]
    exact hd2
  · have hf : DifferentiableAt ℝ (fun q => fderiv ℝ L (Φ q0) (fderiv ℝ Φ q e)) q0 :=
      (fderiv ℝ L (Φ q0)).differentiableAt.comp q0 (hV q0)
    have hd := hasDerivAt_rows th hth hf ⟨k', hk'⟩ b'
    have hX : fderiv ℝ (fun q => fderiv ℝ L (Φ q0) (fderiv ℝ Φ q e)) q0 =
        (fderiv ℝ L (Φ q0)).comp (fderiv ℝ (fun q => fderiv ℝ Φ q e) q0) :=
      ((fderiv ℝ L (Φ q0)).hasFDerivAt.comp q0 (hV q0).hasFDerivAt).fderiv
    rw [hX] at hd
    exact hd.congr_of_eventuallyEq (Filter.Eventually.of_forall fun x => hcurv _ (by rw [setEntry_length, hth]))

/-- C108: where the gradient of the loss with respect to the poses vanishes (a least-squares fit with no residual, for
instance), two passes report the second derivative of the loss. -/
theorem C108_second_order_stationary (root : Frame) (h : WF root) (hr : RigidTree root) {N B : ℕ} (hN : N = (preorder root).length)
    (L : Tens N B → ℝ) (hL : ContDiff ℝ 2 L) (th : List (Fin B → ℝ)) (hth : th.length = (movingJoints root).length)
    (hst : ∀ T, (Chain.init root).fkTensor th = .ok T → ∀ V, fderiv ℝ L (entriesOf N T) V = 0)
    (k k' : ℕ) (b b' : Fin B) (hk : k < (movingJoints root).length) (hk' : k' < (movingJoints root).length) :
    ∃ H, (Chain.init root).grad2 L th k b = .ok H ∧
      HasDerivAt (fun x => entryOf ((Chain.init root).grad L (setEntry th k' b' x)) k b) ((H.getD k' fun _ => 0) b')
        ((th.getD k' fun _ => 0) b') := by
  obtain ⟨T, H, c, h1, h2, -, h4, h5⟩ := C108_second_order_partial root h hr hN L hL th hth k k' b b' hk hk'
  obtain ⟨Φ, hΦ, hT⟩ := exists_smooth root h hN rfl B
  have hc : c = 0 := by
    refine h5.unique ((hasDerivAt_const _ (0 : ℝ)).congr_of_eventuallyEq (Filter.Eventually.of_forall fun x => ?_))
    obtain ⟨T', t1', -, t3', -⟩ := hT (setEntry th k' b' x) (by rw [setEntry_length, hth])
    obtain ⟨g, g1, g2, g3⟩ := backward_gradOf h hr hN rfl hΦ hT (setEntry th k' b' x) (by rw [setEntry_length, hth]) L (entriesOf N T)
    show entryOf _ k b = 0
    rw [t1', t3']
    show entryOf ((Chain.init root).backward _ _) k b = 0
    rw [g1]
    exact (g3 ⟨k, hk⟩ b).trans (hst T h1 _)
  rw [hc, add_zero] at h4
  exact ⟨H, h2, h4⟩

/-- losses with a vanishing gradient at the computed poses exist at every configuration: the squared distance of an
entry to its current value -/
example (th : List (Fin 2 → ℝ)) (hth : th.length = (movingJoints exTree).length) : ∃ L : Tens 5 2 → ℝ, ContDiff ℝ 2 L ∧
    5 = (preorder exTree).length ∧ (∃ X Y, L X ≠ L Y) ∧
    ∀ T, (Chain.init exTree).fkTensor th = .ok T → ∀ V, fderiv ℝ L (entriesOf 5 T) V = 0 := by
  obtain ⟨T, g, h1, -, -⟩ := C108_gradient exTree exTree_wf exTree_rigid (N := 5) (by simp [exTree, preorder, preorderL])
    (fun _ => (0 : ℝ)) th hth
  have hd : ∀ X : Tens 5 2, HasFDerivAt (fun X : Tens 5 2 => X 2 1 0 3) (fderiv ℝ (fun X : Tens 5 2 => X 2 1 0 3) X) X := by
    intro X
    have : DifferentiableAt ℝ (fun X : Tens 5 2 => X 2 1 0 3) X := by fun_prop
    exact this.hasFDerivAt
  refine ⟨fun X => (X 2 1 0 3 - entriesOf 5 T 2 1 0 3) ^ 2, by fun_prop, by simp [exTree, preorder, preorderL],
    ⟨entriesOf 5 T, fun _ _ _ _ => entriesOf 5 T 2 1 0 3 + 1, by simp⟩, fun T' hT' V => ?_⟩
  obtain rfl := Except.ok.inj (h1.symm.trans hT')
  have := ((hd (entriesOf 5 T)).sub_const (entriesOf 5 T 2 1 0 3)).pow 2
  rw [this.fderiv]
  simp

/-! ## the Jacobian -/

/-- the columns as a function of the tensor of all poses -/
noncomputable def jacOf {N B : ℕ} (pos : Name → Fin N) (ee : Fin N) (fs : List Frame) (X : Tens N B) : List (Fin B → Fin 6 → ℝ) :=
  fs.map fun f b => jcol (rotPart (Matrix.of (X (pos f.name) b)) *ᵥ f.joint.axis)
    (posPart (Matrix.of (X ee b)) - posPart (Matrix.of (X (pos f.name) b))) (f.joint.jtype = .revolute)

theorem differentiable_jacOf {N B : ℕ} (pos : Name → Fin N) (ee : Fin N) (fs : List Frame) (c : ℕ) (b : Fin B) (a : Fin 6) :
    Differentiable ℝ fun X : Tens N B => ((jacOf pos ee fs X).getD c fun _ _ => 0) b a := by
  by_cases hc : c < fs.length
  swap
  · have e : ∀ X : Tens N B, ((jacOf pos ee fs X).getD c fun _ _ => 0) b a = 0 := by
      intro X
      rw [List.getD, List.getElem?_eq_none (by rw [jacOf, List.length_map]; omega)]; rfl
    simp only [e]; exact differentiable_const _
  have hX : ∀ l i j, Differentiable ℝ fun X : Tens N B => X l b i j := by
    intro l i j
    fun_prop
  set f := fs[c] with hf
  set Z : Tens N B → V3 := fun X => rotPart (Matrix.of (X (pos f.name) b)) *ᵥ f.joint.axis with hZ
  set D : Tens N B → V3 := fun X => posPart (Matrix.of (X ee b)) - posPart (Matrix.of (X (pos f.name) b)) with hD
  have hz : ∀ i : Fin 3, Differentiable ℝ (fun X => Z X i) := by
    intro i
    simp only [hZ, Matrix.mulVec, dotProduct]
    exact Differentiable.fun_sum fun s _ => (hX _ i.castSucc s.castSucc).mul (differentiable_const _)
  have hp : ∀ i : Fin 3, Differentiable ℝ (fun X => D X i) := fun i => (hX _ i.castSucc 3).sub (hX _ i.castSucc 3)
  have e' : ∀ X : Tens N B, ((jacOf pos ee fs X).getD c fun _ _ => 0) b a = jcol (Z X) (D X) (f.joint.jtype = .revolute) a := by
    intro X
    rw [List.getD, jacOf, List.getElem?_map, List.getElem?_eq_getElem hc]; rfl
  simp only [e', jcol]
  by_cases hr : f.joint.jtype = .revolute
  · simp only [hr, if_true, cross]
    fin_cases a
    · exact ((hz 1).mul (hp 2)).sub ((hz 2).mul (hp 1))
    · exact ((hz 2).mul (hp 0)).sub ((hz 0).mul (hp 2))
    · exact ((hz 0).mul (hp 1)).sub ((hz 1).mul (hp 0))
    · exact hz 0
    · exact hz 1
    · exact hz 2
  · simp only [hr, if_false]
    fin_cases a
    · exact hz 0
    · exact hz 1
    · exact hz 2
    all_goals exact differentiable_const _

/-- the loss as a function of the joint values; 0 when `jacobian_tensor` raises (it does not, see `C108_jacobian_gradient`) -/
noncomputable def jacLossAt (s : SerialChain) {B n : ℕ} (M : (Fin n → Fin B → Fin 6 → ℝ) × (Fin B → Fin 4 → Fin 4 → ℝ) → ℝ)
    (th : List (Fin B → ℝ)) : ℝ :=
  match s.jacobianTensor th with
  | .ok (J, T) => M (fun k b a => (J.getD k fun _ _ => 0) b a, fun b => T b)
  | .error _ => 0

theorem posOf_lt {root f : Frame} (h : WF root) (hf : f ∈ preorder root) : posOf root f.name < (preorder root).length := by
  obtain ⟨j, e, he, rfl⟩ := exists_pos hf
  rw [h.posOf_eq he]
  have := (List.getElem?_eq_some_iff.1 he).1
  rwa [show (visit root).length = (preorder root).length by simpa using (visit_perm root).length_eq] at this

/-- C108: gradients through the Jacobian.  For every loss of the Jacobian and the end-effector pose, the backward pass
through `jacobian_tensor` returns its derivative with respect to every joint value. -/
theorem C108_jacobian_gradient (root rf fe : Frame) (rootName : Name) (p : List Frame) (h : WF root)
    (hr : RigidTree root) (hs : StartsAt root rf rootName) (hp : IsPath rf p) (hl : p.getLast? = some fe)
    {B n : ℕ} (hn : n = (pathJoints p).length) (M : (Fin n → Fin B → Fin 6 → ℝ) × (Fin B → Fin 4 → Fin 4 → ℝ) → ℝ)
    (th : List (Fin B → ℝ)) (hth : th.length = n) :
    ∃ s J T g, SerialChain.init root fe.name rootName = .ok s ∧ s.jacobianTensor th = .ok (J, T) ∧ J.length = n ∧
      s.chain.grad (N := s.chain.numFrames) (s.jacLoss M) th = .ok g ∧ g.length = n ∧
      (DifferentiableAt ℝ M (fun k b a => (J.getD k fun _ _ => 0) b a, fun b => T b) → ∀ (k : ℕ) (b : Fin B), k < n →
        HasDerivAt (fun x => jacLossAt s M (setEntry th k b x)) ((g.getD k fun _ => 0) b) ((th.getD k fun _ => 0) b)) := by
  subst hn
  obtain ⟨rest, rfl⟩ := isPath_head hp
  have hws := serialRoot_wf (h.sub hs.1) hp
  have hrs := serialRoot_rigid (hr.sub hs.1) hp
  have hN : (serialOf rf rest).chain.numFrames = (preorder (serialRoot rf rest)).length := by
    have h1 : (serialOf rf rest).chain.numFrames = (visit (serialRoot rf rest)).length := init_numFrames _
    rw [h1]; simpa using (visit_perm (serialRoot rf rest)).length_eq
  have hpj := pathJoints_length rf rest
  have hpos : 0 < (serialOf rf rest).chain.numFrames := by rw [hN, preorder_eq]; simp
  obtain ⟨fl, -, hfn, hfm⟩ := exists_last rf rest
  obtain ⟨T0, g, g1, g2, g3, g4⟩ := C108_gradient (serialRoot rf rest) hws hrs hN ((serialOf rf rest).jacLoss M) th (hth.trans hpj)
  -- the Jacobian as a function of the poses
  set pos : Name → Fin (serialOf rf rest).chain.numFrames := fun nm =>
    ⟨posOf (serialRoot rf rest) nm % (serialOf rf rest).chain.numFrames, Nat.mod_lt _ hpos⟩ with hposd
  have hat : ∀ (X : Tens (serialOf rf rest).chain.numFrames B) (f : Frame), f ∈ preorder (serialRoot rf rest) →
      tensorAt (tensorOf X) (posOf (serialRoot rf rest) f.name) = .ok fun b => Matrix.of (X (pos f.name) b) := by
    intro X f hf
    have hlt := posOf_lt hws hf
    rw [← hN] at hlt
    have hm : pos f.name = ⟨posOf (serialRoot rf rest) f.name, hlt⟩ := Fin.ext (Nat.mod_eq_of_lt hlt)
    rw [hm]
    simp [tensorAt, tensorOf, hlt]
  have hJ : ∀ X : Tens (serialOf rf rest).chain.numFrames B, (do
      let J ← jacobianCols (tensorOf X) (serialOf rf rest).eefIdx (serialOf rf rest).dofFrameIndices (serialOf rf rest).dofAxes
        (serialOf rf rest).dofTypes
      let tee ← tensorAt (tensorOf X) (serialOf rf rest).eefIdx
      pure (J, tee) : Except Err _) =
      .ok (jacOf pos (pos fl.name) (dofFrames rf rest) X, fun b => Matrix.of (X (pos fl.name) b)) := by
    intro X
    have hee : tensorAt (tensorOf X) (posOf (serialRoot rf rest) (lastName rf rest)) =
        .ok fun b => Matrix.of (X (pos fl.name) b) := by
      rw [← hfn]; exact hat X fl hfm
    have hdof : ((dofFrames rf rest).map fun f => posOf (serialRoot rf rest) f.name).mapM (fun i => tensorAt (tensorOf X) i) =
        .ok ((dofFrames rf rest).map fun f b => Matrix.of (X (pos f.name) b)) := by
      apply mapM_congr_ok
      rw [List.forall₂_map_left_iff, List.forall₂_map_right_iff, List.forall₂_same]
      intro f hf
      exact hat X f (dofFrames_mem hf).1
    unfold jacobianCols
    show (do
      let J ← (do
        let tee ← tensorAt (tensorOf X) (posOf (serialRoot rf rest) (lastName rf rest))
        let tdof ← ((dofFrames rf rest).map fun f => posOf (serialRoot rf rest) f.name).mapM (fun i => tensorAt (tensorOf X) i)
        pure (List.zipWith _ (List.zip tdof ((dofFrames rf rest).map fun f => f.joint.axis))
          ((dofFrames rf rest).map fun f => if f.joint.jtype = .revolute then 1 else 2)))
      let tee ← tensorAt (tensorOf X) (posOf (serialRoot rf rest) (lastName rf rest))
      pure (J, tee) : Except Err _) = _
    rw [hdof, hee]
    simp only [ok_bind, pure_ok]
    rw [zipWith_maps]
    unfold jacOf
    congr 3
    funext f b
    by_cases ht : f.joint.jtype = .revolute <;> simp [jcol, ht]
  have hloss : (serialOf rf rest).jacLoss M = fun X : Tens (serialOf rf rest).chain.numFrames B =>
      M (fun k b a => ((jacOf pos (pos fl.name) (dofFrames rf rest) X).getD k fun _ _ => 0) b a, fun b => X (pos fl.name) b) := by
    funext X
    rw [SerialChain.jacLoss, hJ X]
    rfl
  -- the tensor of forward kinematics and its entries
  have hfk : ∀ t : List (Fin B → ℝ), t.length = (pathJoints (rf :: rest)).length →
      ∃ T, (serialOf rf rest).chain.fkTensor t = .ok T ∧ tensorOf (entriesOf (serialOf rf rest).chain.numFrames T) = T := by
    intro t ht
    refine ⟨_, serial_fkTensor hws t ht, ?_⟩
    apply List.ext_getElem
    · have h1 : (serialOf rf rest).chain.numFrames = (visit (serialRoot rf rest)).length := init_numFrames _
      simp [tensorOf, h1]
    · intro l a1 a2
      simp only [List.length_map, List.length_range] at a2
      simp only [tensorOf, List.getElem_ofFn, List.getElem_map, List.getElem_range]
      funext b; ext i j
      simp [entriesOf, List.getD, a2]
  have hsame : ∀ t : List (Fin B → ℝ), t.length = (pathJoints (rf :: rest)).length →
      lossAt (serialOf rf rest).chain ((serialOf rf rest).jacLoss (N := (serialOf rf rest).chain.numFrames) M) t =
        jacLossAt (serialOf rf rest) M t := by
    intro t ht
    obtain ⟨T, e1, e2⟩ := hfk t ht
    rw [lossAt, jacLossAt, SerialChain.jacobianTensor, e1, ok_bind]
    have hJ' := hJ (entriesOf _ T)
    rw [e2] at hJ'
    simp only [SerialChain.jacLoss, e2, hJ']
  obtain ⟨T1, e1, e2⟩ := hfk th hth
  have hT : T0 = T1 := Except.ok.inj (g1.symm.trans e1)
  subst hT
  have hjt : (serialOf rf rest).jacobianTensor th = .ok (jacOf pos (pos fl.name) (dofFrames rf rest) (entriesOf _ T0),
      fun b => Matrix.of (entriesOf (serialOf rf rest).chain.numFrames T0 (pos fl.name) b)) := by
    rw [SerialChain.jacobianTensor, e1, ok_bind, ← hJ, e2]
  refine ⟨serialOf rf rest, _, _, g, serialInit_ok h hs hp hl rfl, hjt, ?_, g2, g3.trans hpj.symm, ?_⟩
  · rw [jacOf, List.length_map, dofFrames_length]
  intro hM k b hk
  have hd := g4 ?_ k b (hpj ▸ hk)
  · refine hd.congr_of_eventuallyEq (Filter.Eventually.of_forall fun x => ?_)
    exact (hsame _ (by rw [setEntry_length, hth])).symm
  · rw [hloss]
    refine DifferentiableAt.comp (g := M) _ hM (DifferentiableAt.prodMk ?_ ?_)
    · refine differentiableAt_pi.2 fun c => differentiableAt_pi.2 fun b => differentiableAt_pi.2 fun a => ?_
      exact differentiable_jacOf _ _ _ c b a _
    · fun_prop

/-! ## prismatic chains -/

/-- a constant rotation and a position that is affine in the joint values -/
def AffineM {n : ℕ} (M : (Fin n → ℝ) → M4) : Prop :=
  ∃ (R : M3) (c : V3) (A : Fin 3 → (Fin n → ℝ) →L[ℝ] ℝ), ∀ q, M q = mkHom R fun i => c i + A i q

theorem AffineM.mul {n : ℕ} {M M' : (Fin n → ℝ) → M4} (h : AffineM M) (h' : AffineM M') : AffineM fun q => M q * M' q := by
  obtain ⟨R, c, A, e⟩ := h
  obtain ⟨R', c', A', e'⟩ := h'
  refine ⟨R * R', R *ᵥ c' + c, fun i => (∑ s, R i s • A' s) + A i, fun q => ?_⟩
  simp only [e, e', mkHom_mul]
  congr 1
  funext i
  simp only [Pi.add_apply, Matrix.mulVec, dotProduct, ContinuousLinearMap.add_apply, ContinuousLinearMap.sum_apply,
    ContinuousLinearMap.smul_apply, smul_eq_mul, Fin.sum_univ_three]
  ring

theorem AffineM.const {n : ℕ} {T : M4} (h : IsAffine T) : AffineM fun _ : Fin n → ℝ => T :=
  ⟨rotPart T, posPart T, fun _ => 0, fun _ => by simpa using eq_mkHom_of_affine h⟩

theorem exists_look {n : ℕ} (c : ℕ) : ∃ A : (Fin n → ℝ) →L[ℝ] ℝ, ∀ q, look q c = A q := by
  by_cases hc : c < n
  · exact ⟨ContinuousLinearMap.proj ⟨c, hc⟩, fun q => by simp [look, hc]⟩
  · exact ⟨0, fun q => by simp [look, hc]⟩

theorem pathT_affineM {n : ℕ} {root : Frame} (hr : RigidTree root) : ∀ p : List Frame, (∀ f ∈ p, f ∈ preorder root) →
    (∀ f ∈ p, f.joint.jtype ≠ .revolute) → AffineM fun q : Fin n → ℝ => pathT (fun j => look q (column root j)) p
  | [], _, _ => by
    simp only [pathT, List.map_nil, List.prod_nil]
    exact AffineM.const isAffine_one
  | f :: p, hp, hj => by
    have h2 := pathT_affineM (n := n) hr p (fun g hg => hp g (by simp [hg])) (fun g hg => hj g (by simp [hg]))
    have hf := hp f (by simp)
    have e : (fun q : Fin n → ℝ => pathT (fun j => look q (column root j)) (f :: p)) = fun q =>
        (f.link.offset.getD 1 * f.joint.offset.getD 1 * motion f.joint (look q (column root f.joint))) *
          pathT (fun j => look q (column root j)) p := by
      funext q; rw [pathT, List.map_cons, List.prod_cons]; rfl
    have ho : ∀ o : Option M4, (∀ T, o = some T → IsRigid T) → IsAffine (o.getD 1) := by
      intro o h
      cases o with
      | none => exact isAffine_one
      | some T => exact (h T rfl).2
    rw [e]
    refine AffineM.mul (AffineM.mul (AffineM.mul (.const (ho _ (hr.link f hf))) (.const (ho _ (hr.joint f hf)))) ?_) h2
    obtain ⟨A, hA⟩ := exists_look (n := n) (column root f.joint)
    cases ht : f.joint.jtype
    · simp only [motion, ht]; exact .const isAffine_one
    · exact absurd ht (hj f (by simp))
    · refine ⟨1, 0, fun i => f.joint.axis i • A, fun q => ?_⟩
      simp only [motion, ht, hA]
      congr 1
      funext i
      simp [mul_comm]

/-- C108: on a chain without revolute joints, two passes report the second derivative of every loss. -/
theorem C108_second_order_prismatic (root : Frame) (h : WF root) (hr : RigidTree root)
    (hpr : ∀ f ∈ preorder root, f.joint.jtype ≠ .revolute) {N B : ℕ} (hN : N = (preorder root).length)
    (L : Tens N B → ℝ) (hL : ContDiff ℝ 2 L) (th : List (Fin B → ℝ)) (hth : th.length = (movingJoints root).length)
    (k k' : ℕ) (b b' : Fin B) (hk : k < (movingJoints root).length) (hk' : k' < (movingJoints root).length) :
    ∃ H, (Chain.init root).grad2 L th k b = .ok H ∧
      HasDerivAt (fun x => entryOf ((Chain.init root).grad L (setEntry th k' b' x)) k b) ((H.getD k' fun _ => 0) b')
        ((th.getD k' fun _ => 0) b') := by
  obtain ⟨T, H, c, h1, h2, -, h4, h5⟩ := C108_second_order_partial root h hr hN L hL th hth k k' b b' hk hk'
  obtain ⟨Φ, hΦ, hT⟩ := exists_smooth root h hN rfl B
  have haff : ∀ (l : Fin N) (i j : Fin 4), ∃ (c : ℝ) (A : (Fin (movingJoints root).length → ℝ) →L[ℝ] ℝ),
      ∀ q b, Φ q l b i j = c + A (q b) := by
    intro l i j
    have hv : N = (visit root).length := hN.trans (by simpa using (visit_perm root).length_eq.symm)
    obtain ⟨pi, p, g1, g2, g3, g4, -⟩ := ancestors_isPath root l _ (List.getElem?_eq_getElem (hv ▸ l.isLt))
    have hp := isPath_mem g2
    obtain ⟨R, c, A, e⟩ := pathT_affineM (n := (movingJoints root).length) hr p hp (fun f hf => hpr f (hp f hf))
    have hq : ∀ q b, Φ q l b i j = mkHom R (fun i => c i + A i (q b)) i j := by
      intro q b
      set t : List (Fin B → ℝ) := List.ofFn fun k b => q b k with ht
      have htl : t.length = (movingJoints root).length := by simp [ht]
      have hrow : rowsOf (movingJoints root).length t = q := by
        funext b k; simp [rowsOf, rowOf, List.getD, ht]
      obtain ⟨T', t1, -, -, t4⟩ := hT t htl
      have hfk : (Chain.init root).fkTensor t = .ok ((List.range (visit root).length).map (poseAt root t)) := by
        apply fkTensor_ok h.joints_nodup
        · intro hne; rw [htl]; exact List.length_pos_iff.2 hne
        · simp [broadcastCols, htl]
      rw [hfk] at t1
      rw [hrow, ← Except.ok.inj t1] at t4
      rw [← t4]
      have hl : (l : ℕ) < (visit root).length := hv ▸ l.isLt
      simp only [entriesOf, List.getD, List.getElem?_map, List.getElem?_range hl, Option.map_some, Option.getD_some]
      rw [poseAt_path root t g1 g3 b]
      have hb : rowOf (movingJoints root).length t b = q b := congrFun hrow b
      have : colVal root t b = fun j => look (q b) (column root j) := by
        funext j; rw [colVal_look t htl b j, hb]
      rw [this]
      exact congrFun (congrFun (e (q b)) i) j
    by_cases hi : i.val < 3
    · by_cases hj : j.val < 3
      · exact ⟨R ⟨i, hi⟩ ⟨j, hj⟩, 0, fun q b => by rw [hq]; simp [mkHom, hi, hj]⟩
      · exact ⟨c ⟨i, hi⟩, A ⟨i, hi⟩, fun q b => by rw [hq]; simp [mkHom, hi, hj]⟩
    · exact ⟨mkHom R 0 i j, 0, fun q b => by rw [hq]; simp [mkHom, hi]⟩
  have hΦ1 : Differentiable ℝ Φ := (hΦ 1).differentiable one_ne_zero
  have hfd : ∀ q q' v, fderiv ℝ Φ q v = fderiv ℝ Φ q' v := by
    intro q q' v
    funext l b i j
    obtain ⟨c, A, hcA⟩ := haff l i j
    have key : ∀ q, fderiv ℝ Φ q v l b i j = A (v b) := by
      intro q
      have h1 := hasFDerivAt_pi'.1 (hasFDerivAt_pi'.1 (hasFDerivAt_pi'.1 (hasFDerivAt_pi'.1 (hΦ1 q).hasFDerivAt l) b) i) j
      have h2 : HasFDerivAt (fun q => Φ q l b i j) (A.comp (ContinuousLinearMap.proj b)) q := by
        simp only [hcA]
        exact ((A.comp (ContinuousLinearMap.proj (φ := fun _ : Fin B => Fin (movingJoints root).length → ℝ) b)).hasFDerivAt).const_add c
      have := congrArg (fun F => F v) (h1.unique h2)
      simpa using this
    rw [key, key]
  have hc : c = 0 := by
    refine h5.unique ((hasDerivAt_const _ (fderiv ℝ L (entriesOf N T) (fderiv ℝ Φ 0 (unitQ b ⟨k, hk⟩)))).congr_of_eventuallyEq
      (Filter.Eventually.of_forall fun x => ?_))
    obtain ⟨T', t1', -, t3', -⟩ := hT (setEntry th k' b' x) (by rw [setEntry_length, hth])
    obtain ⟨g, g1, g2, g3⟩ := backward_gradOf h hr hN rfl hΦ hT (setEntry th k' b' x) (by rw [setEntry_length, hth]) L (entriesOf N T)
    show entryOf _ k b = _
    rw [t1', t3']
    show entryOf ((Chain.init root).backward _ _) k b = _
    rw [g1]
    refine (g3 ⟨k, hk⟩ b).trans ?_
    rw [hfd _ 0]
  rw [hc, add_zero] at h4
  exact ⟨H, h2, h4⟩

/-- a gantry with one prismatic joint meets the hypotheses -/
example : ∃ root : Frame, WF root ∧ RigidTree root ∧ (∀ f ∈ preorder root, f.joint.jtype ≠ .revolute) ∧
    (movingJoints root).length = 1 := by
  refine ⟨.mk ['b'] {} { name := some ['j'], jtype := .prismatic, axis := ![1, 0, 0] } [], ⟨?_, ?_, ?_⟩, ⟨?_, ?_, ?_⟩, ?_, ?_⟩ <;>
    simp [preorder, preorderL, movingJoints, Frame.name, Frame.joint, Frame.link, Moving, IsUnitV]

/-! ## the reported second derivative is wrong in general -/

/-- the pose of frame `a` of `exTree` -/
theorem exTree_a (x y z : ℝ) : poseAt exTree (B := 1) [fun _ => x, fun _ => y, fun _ => z] (posOf exTree ['a']) 0 0 3 =
    (2 + y) * Real.cos x := by
  have hp : IsPath exTree [exTree, exTree.children[0], exTree.children[0].children[0]] :=
    IsPath.snoc [exTree] _ _ (IsPath.snoc [] _ _ IsPath.single (by simp)) (by simp)
  have := exTree_wf.pose_path (B := 1) (f := exTree.children[0].children[0]) [fun _ => x, fun _ => y, fun _ => z] hp rfl 0
  have hn : (exTree.children[0].children[0]).name = ['a'] := rfl
  rw [hn] at this
  rw [this]
  have c1 : colVal exTree (B := 1) [fun _ => x, fun _ => y, fun _ => z] 0 exTree.children[0].joint = x := by
    simp [colVal, column, movingJoints, exTree, preorder, preorderL, Frame.joint, Frame.children, Moving]
  have c2 : colVal exTree (B := 1) [fun _ => x, fun _ => y, fun _ => z] 0 exTree.children[0].children[0].joint = y := by
    simp [colVal, column, movingJoints, exTree, preorder, preorderL, Frame.joint, Frame.children, Moving, List.idxOf,
      List.findIdx_cons]
  simp only [pathT, List.map_cons, List.map_nil, List.prod_cons, List.prod_nil, mul_one, c1, c2, localT]
  simp only [exTree, Frame.children, List.getElem_cons_zero, Frame.joint, Frame.link, motion, Option.getD_none, Option.getD_some,
    one_mul, mul_one]
  simp only [mkHom_mul]
  rw [show (0 : Fin 4) = (0 : Fin 3).castSucc from rfl, mkHom_col]
  simp only [← axisAndAngleToMatrix33_eq_rotAbout, axisAndAngleToMatrix33]
  simp [Matrix.mulVec, dotProduct, Fin.sum_univ_three]
  exact .inl (by ring)

/-- C108: the reported second derivative is not the second derivative.  For the arm of `exTree` the x coordinate of
frame `a` is `(2 + y) cos x`; its second derivative in `x` at the zero configuration is `-2`, two passes report `0`. -/
theorem C108_second_order_fails : ∃ l : Fin 5, (Chain.init exTree).frameToIdx.item ['a'] = .ok l.val ∧
    let L : Tens 5 1 → ℝ := fun X => X l 0 0 3
    (∀ x y z : ℝ, lossAt (Chain.init exTree) L [fun _ => x, fun _ => y, fun _ => z] = (2 + y) * Real.cos x) ∧
    (∃ H, (Chain.init exTree).grad2 L [fun _ => 0, fun _ => 0, fun _ => 0] 0 0 = .ok H ∧ (H.getD 0 fun _ => 0) 0 = 0) ∧
    (∀ x : ℝ, entryOf ((Chain.init exTree).grad L [fun _ => x, fun _ => 0, fun _ => 0]) 0 0 = -2 * Real.sin x) ∧
    HasDerivAt (fun x : ℝ => entryOf ((Chain.init exTree).grad L [fun _ => x, fun _ => 0, fun _ => 0]) 0 0) (-2) 0 := by
  have hmem : exTree.children[0].children[0] ∈ preorder exTree := by
    simp [exTree, preorder, preorderL, Frame.children]
  have hit : (Chain.init exTree).frameToIdx.item ['a'] = .ok (posOf exTree ['a']) := item_posOf exTree_wf hmem
  have hN : 5 = (preorder exTree).length := by simp [exTree, preorder, preorderL]
  have hn : 3 = (movingJoints exTree).length := by simp [movingJoints, exTree, preorder, preorderL, Frame.joint, Moving]
  have hv : 5 = (visit exTree).length := hN.trans (by simpa using (visit_perm exTree).length_eq.symm)
  have hlt : posOf exTree ['a'] < 5 := by
    obtain ⟨jk, e, he, hef⟩ := exists_pos hmem
    have := exTree_wf.posOf_eq he
    rw [hef] at this
    have h2 : posOf exTree ['a'] = jk := this
    rw [h2, hv]
    exact (List.getElem?_eq_some_iff.1 he).1
  refine ⟨⟨posOf exTree ['a'], hlt⟩, hit, ?_⟩
  intro L
  have hloss : ∀ x y z : ℝ, lossAt (Chain.init exTree) L [fun _ => x, fun _ => y, fun _ => z] = (2 + y) * Real.cos x := by
    intro x y z
    have hfk : (Chain.init exTree).fkTensor (B := 1) [fun _ => x, fun _ => y, fun _ => z] =
        .ok ((List.range (visit exTree).length).map (poseAt exTree [fun _ => x, fun _ => y, fun _ => z])) := by
      apply fkTensor_ok exTree_wf.joints_nodup
      · simp
      · simp [broadcastCols, ← hn]
    rw [lossAt, hfk, ← exTree_a x y z]
    show entriesOf 5 _ _ 0 0 3 = _
    simp only [entriesOf, List.getD, List.getElem?_map, List.getElem?_range (hv ▸ hlt), Option.map_some, Option.getD_some]
  obtain ⟨A, hA⟩ : ∃ A : Tens 5 1 →L[ℝ] ℝ, ⇑A = L :=
    ⟨LinearMap.toContinuousLinearMap { toFun := L, map_add' := fun _ _ => rfl, map_smul' := fun _ _ => rfl }, rfl⟩
  have hlin : ∀ X, HasFDerivAt L A X := fun X => hA ▸ A.hasFDerivAt
  have hL : ∀ k : WithTop ℕ∞, ContDiff ℝ k L := fun k => hA ▸ A.contDiff
  have hgr : ∀ x : ℝ, entryOf ((Chain.init exTree).grad L [fun _ => x, fun _ => 0, fun _ => 0]) 0 0 = -2 * Real.sin x := by
    intro x
    obtain ⟨T, g, -, g2, -, g4⟩ := C108_gradient exTree exTree_wf exTree_rigid hN L [fun _ => x, fun _ => 0, fun _ => 0] hn
    have hd := g4 ((hL 1).differentiable one_ne_zero _) 0 0 (by omega)
    rw [g2]
    refine hd.unique ?_
    have e : (fun x_1 => lossAt (Chain.init exTree) L (setEntry [fun _ => x, fun _ => 0, fun _ => 0] 0 0 x_1)) =
        fun t => (2 + 0) * Real.cos t := by
      funext t
      rw [← hloss t 0 0]
      congr 1
      simp only [setEntry, List.modify_zero_cons]
      congr 1
      funext b; rw [Subsingleton.elim b 0]; simp
    rw [e]
    have := (Real.hasDerivAt_cos x).const_mul (2 + 0)
    rw [show (2 + 0) * -Real.sin x = -2 * Real.sin x by ring] at this
    exact this
  refine ⟨hloss, ?_, hgr, ?_⟩
  · obtain ⟨T, H, c, h1, h2, h3, h4, h5⟩ := C108_second_order_partial exTree exTree_wf exTree_rigid hN L (hL 2)
      [fun _ => 0, fun _ => 0, fun _ => 0] hn 0 0 0 0 (by omega) (by omega)
    refine ⟨H, h2, ?_⟩
    have e : ∀ X Y, fderiv ℝ L X = fderiv ℝ L Y := fun X Y => by rw [(hlin X).fderiv, (hlin Y).fderiv]
    have hsame : ∀ t, entryOf (((Chain.init exTree).fkTensor (setEntry [fun _ => 0, fun _ => 0, fun _ => 0] 0 0 t)).bind fun T' =>
        (Chain.init exTree).backward T' (gradOf L (entriesOf 5 T))) 0 0 =
        entryOf ((Chain.init exTree).grad L (setEntry [fun _ => 0, fun _ => 0, fun _ => 0] 0 0 t)) 0 0 := by
      intro t
      rw [Chain.grad]
      congr 2
      funext T'
      congr 1
      simp only [gradOf]
      rw [e]
    simp only [hsame] at h5
    have := h4.unique h5
    linarith
  · rw [funext hgr]
    simpa using (Real.hasDerivAt_sin 0).const_mul (-2)

end PK
