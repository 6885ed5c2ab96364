import Verif.Lemmas.TapeFk
import Verif.Lemmas.TapeSecond
import Verif.Props.Gradient
import Verif.Props.Hessian

/-!
# C118: gradients with `analytical_grad=False`
-/

namespace PK
open Spec AD Sum
open scoped Classical

/-- C118: with `analytical_grad=False` the call succeeds for every tree, batch, joint values, axes and static offsets, and for every gradient
`g` of the poses the backward pass delivers finite gradients for the joint values, the static offsets and the axes, which are the derivatives
of all the poses weighted by `g`. -/
theorem C118_gradient (nr : NormRule) (root : Frame) (B : ℕ) (x : FkIn (Chain.init root).numFrames (Chain.init root).nJoints B → ℝ)
    (g : Poses (Chain.init root).numFrames B → ℝ) :
    (∃ T, (withParams (Chain.init root) x).fkTensor (List.ofFn fun j b => x (inl (b, j))) = .ok T) ∧
    (fkProg (Chain.init root) _ _ B).run (up x) = up (fkOf (Chain.init root) x) ∧
    ∃ G, (fkProg (Chain.init root) _ _ B).back nr (up x) (up g) = up G ∧ IsVJP (fkOf (Chain.init root)) x g G := by
  obtain ⟨h1, h2, h3⟩ := (fkProg (Chain.init root) (Chain.init root).numFrames (Chain.init root).nJoints B).smooth_sound nr
    (fkProg_smooth _ _ _ _) x g
  have hf : fkOf (Chain.init root) = (fkProg (Chain.init root) (Chain.init root).numFrames (Chain.init root).nJoints B).runR :=
    funext fun y => (fkOf_eq root B y).2
  rw [hf]
  exact ⟨(fkOf_eq root B x).1, h1, _, h2, h3⟩

example (nr : NormRule) (x : FkIn (Chain.init exTree).numFrames (Chain.init exTree).nJoints 2 → ℝ) :
    ∃ G, (fkProg (Chain.init exTree) _ _ 2).back nr (up x) (up fun p => p.1) = up G ∧ IsVJP (fkOf (Chain.init exTree)) x (fun p => p.1) G :=
  (C118_gradient nr exTree 2 x _).2.2

/-- C118: the same for the offsets of links and joints from which `__init__` computes the static offsets. -/
theorem C118_offsets (nr : NormRule) (root : Frame) (B : ℕ) (x : FkOffIn (Chain.init root).numFrames (Chain.init root).nJoints B → ℝ)
    (g : Poses (Chain.init root).numFrames B → ℝ) :
    (fkOffProg (Chain.init root) _ _ B).run (up x) = up (fkOf (Chain.init root) (staticOf x)) ∧
    ∃ G, (fkOffProg (Chain.init root) _ _ B).back nr (up x) (up g) = up G ∧
      IsVJP (fun x => fkOf (Chain.init root) (staticOf x)) x g G := by
  have hs : (fkOffProg (Chain.init root) (Chain.init root).numFrames (Chain.init root).nJoints B).Smooth :=
    ⟨fun _ => trivial, fun _ => trivial, Prog.smooth_rename _ (fkProg_smooth _ _ _ _) _⟩
  obtain ⟨h1, h2, h3⟩ := (fkOffProg (Chain.init root) (Chain.init root).numFrames (Chain.init root).nJoints B).smooth_sound nr hs x g
  have hf : (fun x => fkOf (Chain.init root) (staticOf x))
      = (fkOffProg (Chain.init root) (Chain.init root).numFrames (Chain.init root).nJoints B).runR := by
    funext y
    rw [(fkOf_eq root B (staticOf y)).2]
    unfold fkOffProg
    rw [Prog.runR_stage (fun p : (Fin (Chain.init root).numFrames × Fin 4 × Fin 4) × Fin 4 =>
        y (inr (inl (inl (p.1.1, p.1.2.1, p.2)))) * y (inr (inl (inr (p.1.1, p.2, p.1.2.2))))) (fun _ => rfl),
      Prog.runR_stage (fun p : Fin (Chain.init root).numFrames × Fin 4 × Fin 4 => staticOf y (inr (inl p))) ?_, Prog.runR_rename]
    · congr 1
      funext i
      rcases i with i | i | i <;> rfl
    · intro p
      rw [Op.evalR_lin]
      simp [staticOf, Matrix.mul_apply, Fin.sum_univ_four]
      ring
  rw [hf]
  refine ⟨?_, _, h2, h3⟩
  rw [h1, ← hf]

example (nr : NormRule) (x : FkOffIn (Chain.init exTree).numFrames (Chain.init exTree).nJoints 2 → ℝ) :
    ∃ G, (fkOffProg (Chain.init exTree) _ _ 2).back nr (up x) (up fun p => p.1) = up G ∧
      IsVJP (fun x => fkOf (Chain.init exTree) (staticOf x)) x (fun p => p.1) G :=
  (C118_offsets nr exTree 2 x _).2

theorem withParams_own (root : Frame) {B : ℕ} (th : List (Fin B → ℝ)) :
    withParams (Chain.init root) (ownParams (N := (Chain.init root).numFrames) (J := (Chain.init root).nJoints) (Chain.init root) th)
      = Chain.init root := by
  have h1 : (Chain.init root).axes.length = (Chain.init root).nJoints := by rw [init_axes_length, init_nJoints]
  have h2 : (Chain.init root).staticOffsets.length = (Chain.init root).numFrames := by rw [init_staticOffsets, init_numFrames]; simp
  have e1 := eq_ofFn h1 (0 : V3)
  have e2 := eq_ofFn h2 (0 : M4)
  calc withParams (Chain.init root) (ownParams (N := (Chain.init root).numFrames) (J := (Chain.init root).nJoints) (Chain.init root) th)
      = { Chain.init root with axes := (Chain.init root).axes, staticOffsets := (Chain.init root).staticOffsets } := by
        unfold withParams
        congr 1
        · exact e1.symm
        · exact e2.symm
    _ = Chain.init root := rfl

theorem fkAccum_length {M : Type} [Mul M] {n : ℕ} {parents : List ℤ} {levels : List (List ℕ)} {locals T : List M}
    (h : fkAccum n parents levels locals = .ok T) : T.length = n := by
  unfold fkAccum at h
  split at h
  · cases h
  · have : ∀ {α β : Type} (f : α → Except Err β) (l : List α) (r : List β), l.mapM f = .ok r → r.length = l.length := by
      intro α β f l
      induction l with
      | nil => intro r h; cases h; rfl
      | cons a l ih =>
        intro r h
        rw [List.mapM_cons] at h
        obtain ⟨y, hy, h⟩ := bind_eq_ok.1 h
        obtain ⟨ys, hys, h⟩ := bind_eq_ok.1 h
        cases h
        simp [ih _ hys]
    simpa using this _ _ _ h

theorem getElem_setEntry {B : ℕ} (th : List (Fin B → ℝ)) (k : ℕ) (b : Fin B) (y : ℝ) (n : ℕ) (hn : n < (setEntry th k b y).length) :
    (setEntry th k b y)[n] = if k = n then Function.update (th[n]'(by simpa [setEntry] using hn)) b y else th[n]'(by simpa [setEntry] using hn) := by
  unfold setEntry
  exact List.getElem_modify _ _ _ _ _

/-- changing one joint value in `ownParams` -/
theorem own_update (root : Frame) {B : ℕ} (th : List (Fin B → ℝ)) (hth' : th.length = (Chain.init root).nJoints) (b : Fin B)
    (k : Fin (Chain.init root).nJoints) (y : ℝ) :
    let x0 := ownParams (N := (Chain.init root).numFrames) (J := (Chain.init root).nJoints) (Chain.init root) th
    withParams (Chain.init root) (Function.update x0 (inl (b, k)) y) = Chain.init root ∧
    (List.ofFn fun (j : Fin (Chain.init root).nJoints) (b' : Fin B) => Function.update x0 (inl (b, k)) y (inl (b', j))) = setEntry th k b y := by
  intro x0
  have hx0 : x0 = ownParams (Chain.init root) th := rfl
  have hw : withParams (Chain.init root) (Function.update x0 (inl (b, k)) y) = Chain.init root := by
    refine Eq.trans ?_ (withParams_own root th)
    simp only [withParams]
    congr 1
  have hl : (List.ofFn fun (j : Fin (Chain.init root).nJoints) (b' : Fin B) => Function.update x0 (inl (b, k)) y (inl (b', j)))
      = setEntry th k b y := by
    apply List.ext_getElem
    · simp [setEntry, hth']
    · intro n hn1 hn2
      have hn : n < th.length := by simpa [setEntry] using hn2
      funext b'
      have he : (setEntry th k b y)[n] = if (k : ℕ) = n then Function.update th[n] b y else th[n] := by
        exact getElem_setEntry th k b y n _
      rw [he, List.getElem_ofFn]
      by_cases hk : (k : ℕ) = n
      · subst hk
        rw [if_pos rfl]
        by_cases hb : b' = b
        · subst hb; simp
        · rw [Function.update_of_ne (by simpa using hb), Function.update_of_ne hb]
          simp [hx0, ownParams, List.getD, List.getElem?_eq_getElem hn]
      · rw [if_neg hk, Function.update_of_ne (by
          intro hc
          simp only [inl.injEq, Prod.mk.injEq] at hc
          exact hk (by rw [← hc.2]))]
        simp [hx0, ownParams, List.getD, List.getElem?_eq_getElem hn]
  exact ⟨hw, hl⟩

/-- C118: for the chain's own axes and offsets, the gradient of the joint values is the one that the analytical backward pass (the default)
returns. -/
theorem C118_agrees (nr : NormRule) (root : Frame) (h : WF root) (hr : RigidTree root) {B : ℕ} (th : List (Fin B → ℝ))
    (hth : th.length = (movingJoints root).length) (G : List (Fin B → M4)) (hG : G.length = (preorder root).length) :
    ∃ T grad, (Chain.init root).fkTensor th = .ok T ∧
      (fkProg (Chain.init root) (Chain.init root).numFrames (Chain.init root).nJoints B).run (up (ownParams (Chain.init root) th))
        = (fun p => .fin ((T.getD p.1 0) p.2.1 p.2.2.1 p.2.2.2)) ∧
      (Chain.init root).backward T G = .ok grad ∧
      ∀ (b : Fin B) (k : Fin (Chain.init root).nJoints),
        (fkProg (Chain.init root) (Chain.init root).numFrames _ B).back nr (up (ownParams (Chain.init root) th))
          (up fun p => (G.getD p.1 0) p.2.1 p.2.2.1 p.2.2.2) (inl (b, k)) = .fin ((grad.getD k fun _ => 0) b) := by
  obtain ⟨T, grad, h1, h2, h3, h4⟩ := C16_backward_is_gradient root h hr th hth G hG
  have hJ : (Chain.init root).nJoints = (movingJoints root).length := init_nJoints root
  have hth' : th.length = (Chain.init root).nJoints := by rw [hJ, hth]
  have hthl : (List.ofFn fun (j : Fin (Chain.init root).nJoints) (b : Fin B) =>
      ownParams (N := (Chain.init root).numFrames) (Chain.init root) th (inl (b, j))) = th := (eq_ofFn hth' 0).symm
  have hGN : G.length = (Chain.init root).numFrames := by
    rw [hG, init_numFrames]; exact (by simpa using (visit_perm root).length_eq.symm)
  obtain ⟨-, c2, Gr, c3, c4⟩ := C118_gradient nr root B (ownParams (Chain.init root) th) (fun p => (G.getD p.1 0) p.2.1 p.2.2.1 p.2.2.2)
  refine ⟨T, grad, h1, ?_, h2, ?_⟩
  · rw [c2]
    funext p
    simp only [up, fkOf, withParams_own, hthl, h1]
  intro b k
  rw [c3]
  simp only [up]
  congr 1
  obtain ⟨loss, l1, l2⟩ := h4 k b (lt_of_lt_of_eq k.2 hJ)
  set x0 := ownParams (N := (Chain.init root).numFrames) (J := (Chain.init root).nJoints) (Chain.init root) th with hx0
  have hd : HasDerivAt (fun y => ∑ p : Poses _ _, (G.getD p.1 0) p.2.1 p.2.2.1 p.2.2.2 *
      fkOf (Chain.init root) (Function.update x0 (inl (b, k)) y) p) (Gr (inl (b, k))) (x0 (inl (b, k))) := vjp_entry c4 (inl (b, k))
  have hval : x0 (inl (b, k)) = (th.getD k fun _ => 0) b := rfl
  rw [hval] at hd
  refine hd.unique (l2.congr_of_eventuallyEq (Filter.Eventually.of_forall fun y => ?_))
  obtain ⟨T', t1, t2⟩ := l1 y
  obtain ⟨hw, hl⟩ := own_update root th hth' b k y
  rw [← hx0] at hw hl
  have hT' : T'.length = (Chain.init root).numFrames := by
    unfold Chain.fkTensor at t1
    obtain ⟨L, -, hL⟩ := bind_eq_ok.1 t1
    exact fkAccum_length hL
  simp only [fkOf, hw, hl, t1, t2]
  have hw2 : weighted G T' = (List.zipWith (fun g t => ∑ b, ∑ i, ∑ j, g b i j * t b i j)
      (List.ofFn fun i : Fin (Chain.init root).numFrames => G.getD i 0) (List.ofFn fun i : Fin (Chain.init root).numFrames => T'.getD i 0)).sum := by
    unfold weighted
    rw [← eq_ofFn hGN 0, ← eq_ofFn hT' 0]
  rw [hw2, zipWith_ofFn, List.sum_ofFn]
  simp only [Fintype.sum_prod_type]

example (nr : NormRule) : ∃ grad : List (Fin 2 → ℝ), ∀ (b : Fin 2) (k : Fin (Chain.init exTree).nJoints),
    (fkProg (Chain.init exTree) (Chain.init exTree).numFrames _ 2).back nr
      (up (ownParams (Chain.init exTree) [fun _ => 1, fun b => b, fun _ => -3]))
      (up fun p => ((List.replicate 5 fun _ => !![1, 2, 3, 4; 5, 6, 7, 8; 9, 8, 7, 6; 0, 0, 0, 0] : List (Fin 2 → M4)).getD p.1 0)
        p.2.1 p.2.2.1 p.2.2.2) (inl (b, k)) = .fin ((grad.getD k fun _ => 0) b) := by
  obtain ⟨_, grad, -, -, -, h⟩ := C118_agrees nr exTree exTree_wf exTree_rigid (B := 2) [fun _ => 1, fun b => b, fun _ => -3]
    (by simp [movingJoints, exTree, preorder, preorderL, Frame.joint, Moving])
    (List.replicate 5 fun _ => !![1, 2, 3, 4; 5, 6, 7, 8; 9, 8, 7, 6; 0, 0, 0, 0]) (by simp [exTree, preorder, preorderL])
  exact ⟨grad, h⟩

/-- C118: a loss of the poses that is differentiable there has the gradient that the backward pass delivers, with respect to joint values,
static offsets and axes. -/
theorem C118_loss (nr : NormRule) (root : Frame) (B : ℕ) (x : FkIn (Chain.init root).numFrames (Chain.init root).nJoints B → ℝ)
    (L : (Poses (Chain.init root).numFrames B → ℝ) → ℝ) (hL : DifferentiableAt ℝ L (fkOf (Chain.init root) x)) :
    ∃ G, (fkProg (Chain.init root) _ _ B).back nr (up x) (up (partials L (fkOf (Chain.init root) x))) = up G ∧
      IsGrad (fun x => L (fkOf (Chain.init root) x)) x G := by
  have hf : fkOf (Chain.init root) = (fkProg (Chain.init root) (Chain.init root).numFrames (Chain.init root).nJoints B).runR :=
    funext fun y => (fkOf_eq root B y).2
  rw [hf] at hL ⊢
  exact ⟨_, Prog.back_eq_grad _ (fkProg_smooth _ _ _ _) _ _, Prog.smooth_loss _ (fkProg_smooth _ _ _ _) L x hL⟩

/-- a squared distance of one entry -/
example (nr : NormRule) (x : FkIn (Chain.init exTree).numFrames (Chain.init exTree).nJoints 1 → ℝ)
    (p : Poses (Chain.init exTree).numFrames 1) :
    ∃ G, IsGrad (fun x => (fkOf (Chain.init exTree) x p - 3) ^ 2) x G := by
  obtain ⟨G, -, h⟩ := C118_loss nr exTree 1 x (fun T => (T p - 3) ^ 2) (by fun_prop)
  exact ⟨G, h⟩

/-- C118: second derivatives, for losses with two continuous derivatives.  With `create_graph=True` the first backward pass is recorded
(`Prog.grad`); a second one, started with `v`, gives every input a gradient `u` and every entry of the first pass's gradient of the poses a gradient
`w`, which goes on through the loss (whose own derivatives PyTorch is taken to compute correctly) and through the record of the poses.  The
sum is the derivative of the gradient in direction `v`, with respect to joint values, static offsets and axes.  (With `analytical_grad=True` this
fails: `C108_second_order_fails`.) -/
theorem C118_second_order (nr : NormRule) (root : Frame) (B : ℕ) (x : FkIn (Chain.init root).numFrames (Chain.init root).nJoints B → ℝ)
    (L : (Poses (Chain.init root).numFrames B → ℝ) → ℝ) (hL : ContDiff ℝ 2 L) (v : FkIn (Chain.init root).numFrames (Chain.init root).nJoints B → ℝ) :
    let P := fkProg (Chain.init root) (Chain.init root).numFrames (Chain.init root).nJoints B
    let T := fkOf (Chain.init root) x
    ∃ u w h, P.grad.run (up (Sum.elim x (partials L T))) = P.back nr (up x) (up (partials L T)) ∧
      P.grad.back nr (up (Sum.elim x (partials L T))) (up v) = up (Sum.elim u w) ∧
      P.back nr (up x) (up (partials (fun T => ∑ k, w k * partials L T k) T)) = up h ∧
      IsGrad (fun x => fderiv ℝ (fun x => L (fkOf (Chain.init root) x)) x v) x fun j => u j + h j := by
  exact Prog.second_passes nr _ (fkProg_smooth _ _ _ _) _ (funext fun y => (fkOf_eq root B y).2) L hL x v

/-- The arm of `C108_second_order_fails`: the x coordinate of frame `a` is `(2 + y) cos x`.  Where the analytical backward pass reports 0 for the
second derivative, the recorded passes return `-2`. -/
theorem C118_second_order_arm (nr : NormRule) : ∃ (l : Fin (Chain.init exTree).numFrames) (k : Fin (Chain.init exTree).nJoints),
    (Chain.init exTree).frameToIdx.item ['a'] = .ok l.val ∧ k.val = 0 ∧
    let P := fkProg (Chain.init exTree) (Chain.init exTree).numFrames (Chain.init exTree).nJoints 1
    let x := ownParams (Chain.init exTree) [fun _ => 0, fun _ => 0, fun _ => 0]
    let g : Poses (Chain.init exTree).numFrames 1 → ℝ := Pi.single (l, 0, 0, 3) 1
    P.grad.back nr (up (Sum.elim x g)) (up (Pi.single (inl (0, k)) 1)) (inl (inl (0, k))) = .fin (-2) := by
  obtain ⟨l, h1, h2, -⟩ := C108_second_order_fails
  have hN : (Chain.init exTree).numFrames = 5 := by
    rw [init_numFrames]
    exact (by simpa using (visit_perm exTree).length_eq : (visit exTree).length = _).trans (by simp [exTree, preorder, preorderL])
  have hJ : (Chain.init exTree).nJoints = 3 := by
    rw [init_nJoints]
    simp [movingJoints, exTree, preorder, preorderL, Frame.joint, Moving]
  have hl : l.val < (Chain.init exTree).numFrames := by rw [hN]; exact l.2
  have hk : 0 < (Chain.init exTree).nJoints := by rw [hJ]; norm_num
  refine ⟨⟨l, hl⟩, ⟨0, hk⟩, h1, rfl, ?_⟩
  intro P x g
  set k : Fin (Chain.init exTree).nJoints := ⟨0, hk⟩
  set q : Poses (Chain.init exTree).numFrames 1 := (⟨l, hl⟩, 0, 0, 3)
  have hs : P.Smooth := fkProg_smooth _ _ _ _
  have hloss : ∀ s : ℝ, P.runR (Function.update x (inl (0, k)) s) q = 2 * Real.cos s := by
    intro s
    obtain ⟨hw, hth⟩ := own_update exTree (B := 1) [fun _ => 0, fun _ => 0, fun _ => 0] (by simp [hJ]) 0 k s
    rw [← (fkOf_eq exTree 1 _).2]
    have := h2 s 0 0
    rw [add_zero] at this
    rw [← this, lossAt]
    have he : setEntry [fun _ => 0, fun _ => 0, fun _ => 0] k.val (0 : Fin 1) s = [fun _ => s, fun _ => 0, fun _ => 0] := by
      simp only [setEntry, k, List.modify_zero_cons]
      congr 1
      funext b; rw [Subsingleton.elim b 0]; simp
    unfold fkOf
    rw [hw, hth, he]
    rfl
  have hone : ∀ {κ : Type} [Fintype κ] [DecidableEq κ] (i : κ) (f : κ → ℝ), ∑ j, (Pi.single i (1 : ℝ) : κ → ℝ) j * f j = f i := by
    intro κ _ _ i f
    rw [Finset.sum_eq_single i]
    · simp
    · intro b _ hb; simp [Pi.single_eq_of_ne hb]
    · simp
  have hfirst : ∀ s : ℝ, P.grad.runR (Sum.elim (Function.update x (inl (0, k)) s) g) (inl (0, k)) = -2 * Real.sin s := by
    intro s
    have h3 := vjp_entry (P.smooth_sound nr hs (Function.update x (inl (0, k)) s) g).2.2 (inl (0, k))
    simp only [Function.update_idem, Function.update_self] at h3
    refine h3.unique ?_
    have e : (fun t => ∑ p, g p * P.runR (Function.update x (inl (0, k)) t) p) = fun t => 2 * Real.cos t := by
      funext t
      rw [← hloss t]
      exact hone q _
    rw [e]
    simpa using (Real.hasDerivAt_cos s).const_mul 2
  obtain ⟨-, h4, h5⟩ := P.grad.smooth_sound nr (P.smooth_grad hs) (Sum.elim x g) (Pi.single (inl (0, k)) 1)
  rw [h4]
  simp only [up]
  congr 1
  have h6 := vjp_entry h5 (inl (inl (0, k)))
  refine h6.unique ?_
  have e : (fun t => ∑ j, (Pi.single (inl (0, k)) (1 : ℝ) : FkIn _ _ 1 → ℝ) j *
      P.grad.runR (Function.update (Sum.elim x g) (inl (inl (0, k))) t) j) = fun t => -2 * Real.sin t := by
    funext t
    rw [hone, ← hfirst t]
    congr 1
    funext i
    rcases i with i | i
    · by_cases hi : i = inl (0, k)
      · subst hi; simp
      · rw [Function.update_of_ne (by simpa using hi)]
        simp [Function.update_of_ne hi]
    · simp
  rw [e]
  have hx : (Sum.elim x g : _ → ℝ) (inl (inl (0, k))) = 0 := by simp [x, ownParams, k]
  rw [hx]
  simpa using (Real.hasDerivAt_sin 0).const_mul (-2)

/-- a record with its inputs and results -/
structure Rec where
  (ι μ : Type) [fi : Fintype ι] [fm : Fintype μ] (p : Prog ι μ)
attribute [instance] Rec.fi Rec.fm

/-- the record of the backward pass -/
noncomputable def Rec.grad (r : Rec) : Rec := ⟨r.ι ⊕ r.μ, r.ι, r.p.grad⟩

/-- C118: every order.  Recording backward passes again and again: each is finite everywhere and delivers the derivative of what the
previous one computes, for every input and every incoming gradient. -/
theorem C118_every_order (nr : NormRule) (root : Frame) (B n : ℕ) :
    let r := Rec.grad^[n] ⟨_, _, fkProg (Chain.init root) (Chain.init root).numFrames (Chain.init root).nJoints B⟩
    ∀ (x : r.ι → ℝ) (g : r.μ → ℝ), ∃ F : (r.ι → ℝ) → r.μ → ℝ, (∀ y, r.p.run (up y) = up (F y)) ∧
      ∃ G, r.p.back nr (up x) (up g) = up G ∧ r.grad.p.run (up (Sum.elim x g)) = up G ∧ IsVJP F x g G := by
  intro r x g
  have hs : r.p.Smooth := by
    have : ∀ n (r : Rec), r.p.Smooth → (Rec.grad^[n] r).p.Smooth := by
      intro n
      induction n with
      | zero => intro r h; exact h
      | succ n ih => intro r h; exact ih r.grad (Prog.smooth_grad _ h)
    exact this n _ (fkProg_smooth _ _ _ _)
  refine ⟨r.p.runR, fun y => (r.p.smooth_sound nr hs y fun _ => 0).1, _, (r.p.smooth_sound nr hs x g).2.1, ?_, (r.p.smooth_sound nr hs x g).2.2⟩
  exact (r.p.grad.smooth_sound nr (r.p.smooth_grad hs) _ fun _ => 0).1

end PK
