import Verif.Lemmas.TensorFk
import Verif.Model.Backward
import Verif.Props.Gradient

/-!
# The backward pass and the Jacobian on tensors, entry by entry
-/

namespace PK
open Tn Matrix Spec

/-- The `(F, B, 3)` tensor with the given vectors -/
noncomputable def vecs (t : Tag) (F B : ℕ) (u : ℕ → ℕ → V3) : Tn ℝ := ofV t [F, B] 3 fun i r => u (i.headD 0) (i.getD 1 0) r

theorem vecs_congr {t : Tag} {F B : ℕ} {m m' : ℕ → ℕ → V3} (h : ∀ f < F, ∀ b < B, m f b = m' f b) :
    vecs t F B m = vecs t F B m' := by
  refine ofV_congr fun i hi => ?_
  obtain ⟨f, b, rfl, hf, hb⟩ := validIx_pair hi
  funext r
  exact congrFun (h f hf b hb) r

theorem sub_bin (a b : Tn ℝ) : Tn.sub a b = bin (· - ·) a b := rfl
theorem add_bin (a b : Tn ℝ) : Tn.add a b = bin (· + ·) a b := rfl
theorem mul_bin (a b : Tn ℝ) : Tn.mul a b = bin (· * ·) a b := rfl

theorem vecs_bin (f : ℝ → ℝ → ℝ) (t : Tag) (F B : ℕ) (u w : ℕ → ℕ → V3) :
    bin f (vecs t F B u) (vecs t F B w) = .ok (vecs t F B fun a b k => f (u a b k) (w a b k)) := bin_V f t [F, B] 3 _ _

theorem vecs_cross (t : Tag) (F B : ℕ) (u w : ℕ → ℕ → V3) :
    crossT (vecs t F B u) (vecs t F B w) = .ok (vecs t F B fun a b => cross (u a b) (w a b)) := crossT_V t [F, B] _ _

theorem vecs_sum (t : Tag) (F B : ℕ) (u : ℕ → ℕ → V3) :
    sum (vecs t F B u) = .ok (ofFn t [F, B] fun i => ∑ k, u (i.headD 0) (i.getD 1 0) k) := sum_V t [F, B] 3 _

theorem posColumn_poses (d : DType) (v : Device) (F B : ℕ) (m : ℕ → ℕ → M4) :
    posColumn (poses (flTag d v) F B m) = .ok (vecs (flTag d v) F B fun f b => posPart (m f b)) :=
  posColumn_M d v [F, B] _

theorem rotBlock_poses (d : DType) (v : Device) (F B : ℕ) (m : ℕ → ℕ → M4) :
    rotBlock (poses (flTag d v) F B m) =
      .ok (ofM (flTag d v) [F, B] 3 3 fun i r c => rotPart (m (i.headD 0) (i.getD 1 0)) r c) :=
  rotBlock_M d v [F, B] _

theorem tauT_poses (t : Tag) (F B : ℕ) (m g : ℕ → ℕ → M4) :
    tauT (ofM t [F, B] 3 3 fun i r c => rotPart (m (i.headD 0) (i.getD 1 0)) r c)
      (ofM t [F, B] 3 3 fun i r c => rotPart (g (i.headD 0) (i.getD 1 0)) r c) =
      .ok (vecs t F B fun f b => tauLink (m f b) (g f b)) := by
  rw [tauT, transposeLast_M, ok_bind, matmulT_MB t 3 3 3 _ _ (bshape_self [F, B]), ok_bind]
  dsimp only
  simp only [selectRow_M _ _ _ _ _ (show 0 < 3 by omega), selectRow_M _ _ _ _ _ (show 1 < 3 by omega),
    selectRow_M _ _ _ _ _ (show 2 < 3 by omega), ok_bind, selectLast_V _ _ _ _ (show 0 < 3 by omega),
    selectLast_V _ _ _ _ (show 1 < 3 by omega), selectLast_V _ _ _ _ (show 2 < 3 by omega), sub_bin, bin_S]
  rw [stackLast_S3]
  congr 1
  refine ofV_congr fun i hi => ?_
  rw [bidx_valid hi]
  funext k
  fin_cases k <;> simp [tauLink, Matrix.mul_apply, Matrix.transpose_apply]

/-! ## Sums over the frames that a joint moves -/

theorem matmulT_2 (t : Tag) (D L M : ℕ) (a b : List ℕ → ℝ) :
    matmulT (ofFn t [D, L] a) (ofFn t [L, M] b) =
      .ok (ofFn t [D, M] fun i => ∑ l ∈ Finset.range L, a [i.headD 0, l] * b [l, i.getD 1 0]) := by
  rw [matmulT]
  simp only [ofFn_shape, List.reverse_cons, List.reverse_nil, List.nil_append, List.singleton_append, ofFn_tag, if_true,
    bshape_self, ok_bind, PK.matmul]
  show Except.ok _ = _
  congr 1
  refine ofFn_congr fun i hi => ?_
  obtain ⟨f, k, rfl, hf, hk⟩ := validIx_pair hi
  refine Finset.sum_congr rfl fun l hl => ?_
  have hl' := Finset.mem_range.1 hl
  have e1 : (ofFn t [D, L] a).get [f, l] = a [f, l] := ofFn_get (validIx_pair_iff.2 ⟨hf, hl'⟩)
  have e2 : (ofFn t [L, M] b).get [l, k] = b [l, k] := ofFn_get (validIx_pair_iff.2 ⟨hl', hk⟩)
  simp only [List.headD_cons, List.getD_cons_succ, List.getD_cons_zero]
  rw [← e1, ← e2]
  rfl

theorem reshape_flat (t : Tag) (L B : ℕ) (u : ℕ → ℕ → V3) :
    reshape (vecs t L B u) [L, B * 3] = .ok (ofFn t [L, B * 3] fun i => u (i.headD 0) (i.getD 1 0 / 3) (Fin.ofNat 3 (i.getD 1 0))) := by
  rw [reshape, if_pos (by simp [vecs])]
  congr 1
  refine ofFn_congr fun i hi => ?_
  obtain ⟨l, c, rfl, hl, hc⟩ := validIx_pair hi
  have hcb : c / 3 < B := by omega
  have hc3 : c % 3 < 3 := Nat.mod_lt _ (by omega)
  have hu : unravel [L, B, 3] (ravel [L, B * 3] [l, c]) = [l, c / 3] ++ [c % 3] := by
    simp only [ravel, unravel, List.headD_cons, List.tail_cons, List.prod_cons, List.prod_nil, mul_one, add_zero, Nat.div_one,
      List.cons_append, List.nil_append]
    rw [show l * (B * 3) + c = c + B * 3 * l by ring, Nat.add_mul_div_left _ _ (by omega), Nat.add_mul_mod_self_left,
      Nat.div_eq_of_lt hc, Nat.mod_eq_of_lt hc, zero_add]
  show (vecs t L B u).get (unravel [L, B, 3] (ravel [L, B * 3] [l, c])) = _
  rw [hu, vecs, ofV_get (validIx_pair_iff.2 ⟨hl, hcb⟩) hc3]
  rfl

theorem reshape_unflat (t : Tag) (D : ℕ) {B : ℕ} (hB : 0 < B) (g : List ℕ → ℝ) :
    reshapeInfer (ofFn t [D, B * 3] g) [B, 3] = .ok (vecs t D B fun j b k => g [j, b * 3 + k]) := by
  have hp : [B, 3].prod = B * 3 := by simp
  rw [reshapeInfer, if_neg (by rw [hp]; omega), hp]
  have hd : (ofFn t [D, B * 3] g).shape.prod / (B * 3) = D := by
    simp only [ofFn_shape, List.prod_cons, List.prod_nil, mul_one]
    exact Nat.mul_div_cancel _ (by omega)
  rw [hd, reshape, if_pos (by simp)]
  congr 1
  refine eq_ofV rfl rfl fun i k hk hi => ?_
  obtain ⟨j, b, rfl, hj, hb⟩ := validIx_pair hi
  have e : ValidIx ([j, b] ++ [k]) [D, B, 3] := validIx_snoc.2 ⟨hi, hk⟩
  rw [ofFn_get e]
  have hlt : b * 3 + k < B * 3 := by omega
  have hu : unravel [D, B * 3] (ravel [D, B, 3] ([j, b] ++ [k])) = [j, b * 3 + k] := by
    simp only [ravel, unravel, List.headD_cons, List.tail_cons, List.prod_cons, List.prod_nil, mul_one, add_zero, Nat.div_one,
      List.cons_append, List.nil_append]
    rw [show j * (B * 3) + (b * 3 + k) = (b * 3 + k) + B * 3 * j by ring, Nat.add_mul_div_left _ _ (by omega),
      Nat.add_mul_mod_self_left, Nat.div_eq_of_lt hlt, Nat.mod_eq_of_lt hlt, zero_add]
  simp only [ofFn_shape] at hu ⊢
  rw [hu]
  exact ofFn_get (validIx_pair_iff.2 ⟨hj, hlt⟩)

theorem maskSumT_vecs (t : Tag) (D L : ℕ) {B : ℕ} (hB : 0 < B) (mk : ℕ → ℕ → ℝ) (u : ℕ → ℕ → V3) :
    maskSumT (ofFn t [D, L] fun i => mk (i.headD 0) (i.getD 1 0)) (vecs t L B u) L B =
      .ok (vecs t D B fun j b => ∑ l ∈ Finset.range L, mk j l • u l b) := by
  rw [maskSumT, reshape_flat, ok_bind, matmulT_2, ok_bind, reshape_unflat _ _ hB]
  congr 1
  refine vecs_congr fun j _ b _ => ?_
  funext k
  rw [Finset.sum_apply]
  refine Finset.sum_congr rfl fun l _ => ?_
  have h1 : (b * 3 + (k : ℕ)) / 3 = b := by omega
  have h2 : Fin.ofNat 3 (b * 3 + (k : ℕ)) = k := Fin.ext (by simp [Fin.ofNat, Nat.add_mod])
  simp only [List.headD_cons, List.getD_cons_succ, List.getD_cons_zero, h1, h2]
  rfl

/-- with an empty batch the size that should be inferred is ambiguous -/
theorem maskSumT_empty (t : Tag) (D L : ℕ) (mk : ℕ → ℕ → ℝ) (u : ℕ → ℕ → V3) :
    maskSumT (ofFn t [D, L] fun i => mk (i.headD 0) (i.getD 1 0)) (vecs t L 0 u) L 0 = .error .runtimeError := by
  rw [maskSumT, reshape_flat, ok_bind, matmulT_2, ok_bind, reshapeInfer, if_pos (by simp)]

/-! ## The world axes of the joints -/

theorem axesT (d : DType) (v : Device) (A : List V3) {D B : ℕ} (hA : A.length = D) (R : ℕ → ℕ → M3) :
    (do let y ← matmulT (ofM (flTag d v) [D, B] 3 3 fun i r c => R (i.headD 0) (i.getD 1 0) r c)
          (unsqueezeAt (unsqueeze (vecsT (flTag d v) A)) 1)
        pure (squeezeLast y) : Except Err (Tn ℝ)) =
      .ok (vecs (flTag d v) D B fun j b => R j b *ᵥ A.getD j 0) := by
  rw [vecsT_V, unsqueeze_V, unsqueezeAt_M1, hA, matmulT_MB _ 3 3 1 _ _ (bshape_FB1 D B), ok_bind, squeezeLast_M]
  show Except.ok _ = _
  congr 1
  refine ofV_congr fun i hi => ?_
  obtain ⟨j, b, rfl, hj, hb⟩ := validIx_pair hi
  rw [bidx_valid hi, bidx_F1 (B := B) hj]
  funext r
  rfl

theorem sel_D1 {t c : Tag} (hc : c.dev = t.dev) (D B : ℕ) (p : ℕ → Bool) (a b : List ℕ → ℝ) :
    sel (ofV c [D] 1 fun i _ => p (i.headD 0)) (ofFn t [D, B] a) (ofFn t [D, B] b) =
      .ok (ofFn t [D, B] fun i => bif p (i.headD 0) then a i else b i) := by
  rw [sel]
  simp only [ofFn_shape, ofFn_tag, ofV_shape, ofV_tag, bshape_self, ok_bind, whereT_fl _ _ hc, List.singleton_append]
  rw [bshape_F1, ok_bind]
  show Except.ok _ = _
  congr 1
  refine ofFn_congr fun i hi => ?_
  obtain ⟨f, e, rfl, hf, he⟩ := validIx_pair hi
  rw [bidx_F1 (B := B) hf, bidx_valid hi, ofFn_get hi, ofFn_get hi]
  have : (ofV c [D] 1 fun i _ => p (i.headD 0)).get ([f] ++ [0]) = p f := ofV_get (validIx_one_iff.2 hf) Nat.one_pos
  rw [show [f, 0] = [f] ++ [0] from rfl, this]
  rfl


/-! ## The backward pass -/

/-- The `(F, B, 4, 4)` tensor of a list of batches of poses -/
noncomputable def posesL (t : Tag) {B : ℕ} (l : List (Fin B → M4)) : Tn ℝ := posesF t l.length B fun f => l.getD f 0

/-- The `(B, n)` tensor with the given columns -/
noncomputable def colsT (t : Tag) {B : ℕ} (l : List (Fin B → ℝ)) : Tn ℝ :=
  ofFn t [B, l.length] fun i => if h : i.headD 0 < B then (l.getD (i.getD 1 0) fun _ => 0) ⟨i.headD 0, h⟩ else 0

theorem posesF_congr {t : Tag} {F B : ℕ} {m m' : ℕ → Fin B → M4} (h : ∀ f < F, m f = m' f) : posesF t F B m = posesF t F B m' := by
  refine poses_congr fun f hf b hb => ?_
  simp only [hb, dif_pos, h f hf]

theorem maskSum_range {row : List ℝ} {xs : List V3} {L : ℕ} (hr : row.length = L) (hx : xs.length = L) :
    maskSum row xs = ∑ l ∈ Finset.range L, row.getD l 0 • xs.getD l 0 := by
  have : xs = (List.range row.length).map fun l => xs.getD l 0 := by
    apply List.ext_getElem
    · simp [hr, hx]
    · intro i h1 h2
      simp [List.getD, List.getElem?_eq_getElem h1]
  rw [maskSum]
  conv_lhs => rw [this]
  rw [zipWith_range _ 0, sum_range_map, hr]

/-- What the tables of a chain satisfy for its backward pass -/
structure BackTables (c : Chain) (N J : ℕ) : Prop where
  nJoints : c.nJoints = J
  numFrames : c.numFrames = N
  dof : c.dofFrameIndices.length = J
  dof_lt : ∀ k ∈ c.dofFrameIndices, k < N
  axes : c.axes.length = J
  mask : c.dofAncestorMask.length = J
  row : ∀ r ∈ c.dofAncestorMask, r.length = N
  rev : c.dofIsRevolute.length = J

/-- Entry `[j, l]` of the mask -/
def maskN (c : Chain) (j l : ℕ) : ℝ := (c.dofAncestorMask.getD j []).getD l 0

theorem backTables_mask {c : Chain} {N J : ℕ} (h : BackTables c N J) (d : DType) (v : Device) :
    (c.tensors d v).dofAncestorMask = ofFn (flTag d v) [J, N] fun i => maskN c (i.headD 0) (i.getD 1 0) := by
  rw [← h.nJoints, ← h.numFrames]
  rfl

theorem backTables_rev {c : Chain} {N J : ℕ} (h : BackTables c N J) (d : DType) (v : Device) :
    unsqueeze (c.tensors d v).dofIsRevolute = ofV (eqT (ixTag v)) [J] 1 fun i _ => c.dofIsRevolute.getD (i.headD 0) false := by
  rw [← h.rev]
  exact unsqueeze_S _ _ _

/-- entry of the gradient for joint `j` and row `b` -/
noncomputable def gradN (c : Chain) (N : ℕ) (m g : ℕ → ℕ → M4) (j b : ℕ) : ℝ :=
  let mk := maskN c j
  let k := c.dofFrameIndices.getD j 0
  let z := rotPart (m k b) *ᵥ c.axes.getD j 0
  let sumTau := ∑ l ∈ Finset.range N, mk l • tauLink (m l b) (g l b)
  let sumGradT := ∑ l ∈ Finset.range N, mk l • posPart (g l b)
  let sumCross := ∑ l ∈ Finset.range N, mk l • cross (posPart (m l b)) (posPart (g l b))
  bif c.dofIsRevolute.getD j false then dot z (sumTau + sumCross - cross (posPart (m k b)) sumGradT) else dot z sumGradT

theorem backward_poses {c : Chain} {N J : ℕ} (h : BackTables c N J) (d : DType) (v : Device) {B : ℕ} (hB : 0 < B)
    (m g : ℕ → ℕ → M4) :
    (c.tensors d v).backward (poses (flTag d v) N B m) (poses (flTag d v) N B g) =
      .ok (ofFn (flTag d v) [B, J] fun i => gradN c N m g (i.getD 1 0) (i.headD 0)) := by
  have hz := axesT d v c.axes (B := B) h.axes fun j b => rotPart (m (c.dofFrameIndices.getD j 0) b)
  rw [ChainT.backward, rotBlock_poses, ok_bind, posColumn_poses, ok_bind,
    rotBlock_poses, ok_bind, posColumn_poses, ok_bind, tauT_poses, ok_bind]
  rw [index0_poses h.dof_lt (show (c.tensors d v).dofFrameIndices.tag = ixTag v from rfl) (picks_nat (ixTag v) N _ h.dof_lt),
    ok_bind, rotBlock_poses, ok_bind, h.dof, posColumn_poses]
  cases hm : matmulT (ofM (flTag d v) [J, B] 3 3 fun i r k => rotPart (m (c.dofFrameIndices.getD (i.headD 0) 0) (i.getD 1 0)) r k)
      (unsqueezeAt (unsqueeze (vecsT (flTag d v) c.axes)) 1) with
  | error e => rw [hm, error_bind] at hz; exact absurd hz (by simp)
  | ok y =>
    rw [hm, ok_bind, pure_ok, Except.ok.injEq] at hz
    rw [show matmulT _ (unsqueezeAt (unsqueeze (c.tensors d v).axes) 1) = _ from hm, ok_bind, ok_bind, hz]
    show (do
      let sum_tau ← maskSumT (c.tensors d v).dofAncestorMask _ N B
      _) = _
    rw [backTables_mask h, maskSumT_vecs _ _ _ hB (maskN c), ok_bind, maskSumT_vecs _ _ _ hB (maskN c), ok_bind, vecs_cross, ok_bind,
      maskSumT_vecs _ _ _ hB (maskN c), ok_bind, add_bin, vecs_bin, ok_bind, vecs_cross, ok_bind, sub_bin, vecs_bin, ok_bind,
      mul_bin, vecs_bin, ok_bind, vecs_sum, ok_bind, mul_bin, vecs_bin, ok_bind, vecs_sum, ok_bind, backTables_rev h,
      sel_D1 (t := flTag d v) (c := eqT (ixTag v)) rfl J B fun j => c.dofIsRevolute.getD j false, ok_bind, transposeLast_S]
    congr 1
    refine ofFn_congr fun i hi => ?_
    obtain ⟨b, j, rfl, hb, hj⟩ := validIx_pair hi
    simp only [List.headD_cons, List.getD_cons_succ, List.getD_cons_zero, gradN, dot, Fin.sum_univ_three, Pi.add_apply,
      Pi.sub_apply]

theorem backward_empty {c : Chain} {N J : ℕ} (h : BackTables c N J) (d : DType) (v : Device) (m g : ℕ → ℕ → M4) :
    (c.tensors d v).backward (poses (flTag d v) N 0 m) (poses (flTag d v) N 0 g) = .error .runtimeError := by
  have hz := axesT d v c.axes (B := 0) h.axes fun j b => rotPart (m (c.dofFrameIndices.getD j 0) b)
  rw [ChainT.backward, rotBlock_poses, ok_bind, posColumn_poses, ok_bind,
    rotBlock_poses, ok_bind, posColumn_poses, ok_bind, tauT_poses, ok_bind]
  rw [index0_poses h.dof_lt (show (c.tensors d v).dofFrameIndices.tag = ixTag v from rfl) (picks_nat (ixTag v) N _ h.dof_lt),
    ok_bind, rotBlock_poses, ok_bind, h.dof, posColumn_poses]
  cases hm : matmulT (ofM (flTag d v) [J, 0] 3 3 fun i r k => rotPart (m (c.dofFrameIndices.getD (i.headD 0) 0) (i.getD 1 0)) r k)
      (unsqueezeAt (unsqueeze (vecsT (flTag d v) c.axes)) 1) with
  | error e => rw [hm, error_bind] at hz; exact absurd hz (by simp)
  | ok y =>
    rw [hm, ok_bind, pure_ok, Except.ok.injEq] at hz
    rw [show matmulT _ (unsqueezeAt (unsqueeze (c.tensors d v).axes) 1) = _ from hm, ok_bind, ok_bind, hz]
    show (do
      let sum_tau ← maskSumT (c.tensors d v).dofAncestorMask _ N 0
      _) = _
    rw [backTables_mask h, maskSumT_empty _ _ _ (maskN c), error_bind]

theorem backwardT {c : Chain} {N J : ℕ} (h : BackTables c N J) (d : DType) (v : Device) {B : ℕ} (hB : 0 < B)
    (T G : List (Fin B → M4)) (hT : T.length = N) (hG : G.length = N) :
    ∃ grad, c.backward T G = .ok grad ∧ grad.length = J ∧
      (c.tensors d v).backward (posesL (flTag d v) T) (posesL (flTag d v) G) = .ok (colsT (flTag d v) grad) := by
  have hdof : ∀ i ∈ c.dofFrameIndices, tensorAt T i = .ok (T.getD i 0) := by
    intro i hi
    have : i < T.length := by rw [hT]; exact h.dof_lt i hi
    simp [tensorAt, List.getElem?_eq_getElem this]
  obtain ⟨grad, hgrad⟩ : ∃ grad, c.backward T G = .ok grad := by
    unfold Chain.backward fkBackward
    rw [mapM_ok _ _ _ hdof]
    exact ⟨_, rfl⟩
  have hgv := hgrad
  unfold Chain.backward fkBackward at hgv
  rw [mapM_ok _ _ _ hdof] at hgv
  rw [ok_bind, pure_ok, Except.ok.injEq] at hgv
  have hlen : grad.length = J := by
    rw [← hgv]; simp [h.dof, h.axes, h.rev, h.mask]
  refine ⟨grad, hgrad, hlen, ?_⟩
  rw [posesL, posesL, posesF, posesF, hT, hG, backward_poses h d v hB, colsT, hlen]
  congr 1
  refine ofFn_congr fun i hi => ?_
  obtain ⟨b, j, rfl, hb, hj⟩ := validIx_pair hi
  have hj1 : j < c.dofFrameIndices.length := by rw [h.dof]; exact hj
  have hj2 : j < c.axes.length := by rw [h.axes]; exact hj
  have hj3 : j < c.dofAncestorMask.length := by rw [h.mask]; exact hj
  have hj4 : j < c.dofIsRevolute.length := by rw [h.rev]; exact hj
  have hrow : (c.dofAncestorMask[j]).length = N := h.row _ (List.getElem_mem hj3)
  show gradN c N _ _ j b = if h : b < B then (grad.getD j fun _ => 0) ⟨b, h⟩ else 0
  rw [dif_pos hb, ← hgv]
  simp only [gradN, maskN, dif_pos hb, List.getD, List.getElem?_zipWith,
    List.zip, List.getElem?_map, List.getElem?_eq_getElem hj1, List.getElem?_eq_getElem hj2, List.getElem?_eq_getElem hj3,
    List.getElem?_eq_getElem hj4, Option.map_some, Option.getD_some]
  rw [maskSum_range hrow (by simp [hT, hG]), maskSum_range hrow (by simp [hT, hG]), maskSum_range hrow (by simp [hG])]
  have e1 : ∀ (F : (Fin B → M4) → (Fin B → M4) → V3), ∀ l ∈ Finset.range N,
      (List.zipWith F T G).getD l 0 = F (T[l]?.getD 0) (G[l]?.getD 0) := by
    intro F l hl
    have h1 : l < T.length := by rw [hT]; exact Finset.mem_range.1 hl
    have h2 : l < G.length := by rw [hG]; exact Finset.mem_range.1 hl
    simp [List.getD, List.getElem?_zipWith, List.getElem?_eq_getElem h1, List.getElem?_eq_getElem h2]
  have e2 : ∀ (F : (Fin B → M4) → V3), ∀ l ∈ Finset.range N, (List.map F G).getD l 0 = F (G[l]?.getD 0) := by
    intro F l hl
    have h2 : l < G.length := by rw [hG]; exact Finset.mem_range.1 hl
    simp [List.getD, List.getElem?_eq_getElem h2]
  have e1' := fun (F : (Fin B → M4) → (Fin B → M4) → V3) =>
    Finset.sum_congr rfl fun l hl => congrArg ((c.dofAncestorMask[j]).getD l 0 • ·) (e1 F l hl)
  have e2' := fun (F : (Fin B → M4) → V3) =>
    Finset.sum_congr rfl fun l hl => congrArg ((c.dofAncestorMask[j]).getD l 0 • ·) (e2 F l hl)
  rw [e1', e1', e2']
  cases c.dofIsRevolute[j] <;> rfl

end PK
