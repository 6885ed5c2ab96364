import Verif.Lemmas.TensorT3Init
import Verif.Props.Batch
import Verif.Props.Transform3d

/-!
# C124: transforms as tensors: every row of a batch, every dtype, every device

`IsT T n d v`: a transform of `n` rows whose matrix has floating dtype `d` and is on device `v`; `n` may be 0.  `mat T i` is
row `i`.  The theorems give, for transforms and tensors with arbitrary batch sizes, dtypes and devices, the batch size, dtype
and device of the result and every row of it, or the exception.
-/

namespace PK
open Tn Spec Matrix

/-- A transform of `n` rows, dtype `d`, on device `v` -/
def IsT (T : T3T) (n : ℕ) (d : DType) (v : Device) : Prop := HasMat T.matrix [n] 4 4 (flTag d v)
/-- The attributes `dtype` and `device` say what the matrix has -/
def Honest (T : T3T) : Prop := T.dtype = T.matrix.tag.dt ∧ T.device = T.matrix.tag.dev
/-- Row `i` -/
def mat (T : T3T) (i : ℕ) : M4 := matAt 4 4 T.matrix [i]

section
variable {rd : DType → ℝ → ℝ} {T U : T3T} {n m P : ℕ} {d d' dp : DType} {v v' : Device}

/-- The matrix by its entries -/
theorem IsT.eq (h : IsT T n d v) : T = ⟨T.kind, box (flTag d v) n 4 4 fun i j l => T.matrix.get [i, j, l], T.dtype, T.device⟩ := by
  have e := eta3 (a := T.matrix) h.1
  rw [h.2] at e
  cases T
  exact congrArg (T3T.mk _ · _ _) e

theorem isT_box {k : TKind} {a : Dt} {w : Device} {f : ℕ → ℕ → ℕ → ℝ} : IsT ⟨k, box (flTag d v) n 4 4 f, a, w⟩ n d v := ⟨rfl, rfl⟩

theorem mat_box {k : TKind} {a : Dt} {w : Device} {t : Tag} {f : ℕ → ℕ → ℕ → ℝ} {i : ℕ} (hi : i < n) :
    mat ⟨k, box t n 4 4 f, a, w⟩ i = .of fun r c => f i r c := by
  ext r c
  exact box_get (t := t) hi r.isLt c.isLt

theorem matAt_box {t : Tag} {p q : ℕ} {f : ℕ → ℕ → ℕ → ℝ} {i : ℕ} (hi : i < n) :
    matAt p q (box t n p q f) [i] = .of fun r c => f i r c := by
  ext r c
  exact box_get (t := t) hi r.isLt c.isLt

theorem conv2_eq {x : ℝ} : conv2 rd (.fl d) (.fl d') x = if d = d' then x else rd d x := by
  unfold conv2
  by_cases h : d = d'
  · rw [if_pos h, if_pos (by rw [h])]
  · rw [if_neg h, if_neg (by simpa using h)]; rfl

theorem asDt_apply {p q : ℕ} (M : Matrix (Fin p) (Fin q) ℝ) (r : Fin p) (c : Fin q) :
    asDt rd d d' M r c = conv2 rd (.fl d) (.fl d') (M r c) := by
  rw [conv2_eq]; unfold asDt
  split_ifs <;> rfl

/-- Composition: row `i` is the product of the rows `i`; one row is used for every row of the other operand.  The result has the
dtype of the first operand, and the second operand is converted to it. -/
theorem C124_compose (hT : IsT T n d v) (hU : IsT U m d' v) (h : Compat n m) :
    ∃ R, T.compose rd [U] = .ok R ∧ IsT R (bsize n m) d v ∧ Honest R ∧ R.kind = .plain ∧
      ∀ i < bsize n m, mat R i = mat T (bcRow n i) * asDt rd d d' (mat U (bcRow m i)) := by
  rw [T3T.compose]
  simp only [List.foldlM_cons, List.foldlM_nil]
  rw [hT.eq, hU.eq]
  dsimp only
  have hb := broadcastBmm_box (n := n) (m := m) (p := 4) (k := 4) (q := 4) (f := fun i j l => T.matrix.get [i, j, l])
    (g := fun i j l => U.matrix.get [i, j, l]) rd v (.fl d) (.fl d') h
  rw [show flTag d v = (⟨.fl d, v⟩ : Tag) from rfl, show flTag d' v = (⟨.fl d', v⟩ : Tag) from rfl, hb, ok_bind, pure_ok, ok_bind,
    ofMatrix_box]
  refine ⟨_, rfl, ⟨rfl, rfl⟩, ⟨rfl, rfl⟩, rfl, fun i hi => ?_⟩
  obtain ⟨h1, h2⟩ := bcRow_lt h hi
  rw [mat_box hi, mat_box h1, mat_box h2]
  ext r c
  simp only [Matrix.of_apply, Matrix.mul_apply, asDt_apply, Finset.sum_range_succ, Finset.sum_range_zero, Fin.sum_univ_four, zero_add]
  rfl

/-- Batch sizes that differ, none of them 1: `ValueError` -/
theorem C124_compose_sizes (hT : IsT T n d v) (hU : IsT U m d' v') (h : ¬ Compat n m) : T.compose rd [U] = .error .valueError := by
  rw [T3T.compose]
  simp only [List.foldlM_cons, List.foldlM_nil]
  rw [broadcastBmm_refuses rd hT.1 (by simp) hU.1 h]
  rfl

/-- Different devices: `RuntimeError` -/
theorem C124_compose_devices (hT : IsT T n d v) (hU : IsT U m d' v') (hv : v ≠ v') (h : Compat n m) :
    T.compose rd [U] = .error .runtimeError := by
  rw [T3T.compose]
  simp only [List.foldlM_cons, List.foldlM_nil]
  rw [hT.eq, hU.eq]
  dsimp only
  rw [broadcastBmm_devices rd (by exact hv) h]
  rfl

/-- `t.compose(u, u', …)` is `t.compose(u).compose(u', …)`. -/
theorem C124_compose_list (hT : IsT T n d v) (hU : IsT U m d' v) (us : List T3T) :
    T.compose rd (U :: us) = T.compose rd [U] >>= fun R => R.compose rd us := by
  by_cases h : Compat n m
  · simp only [T3T.compose]
    simp only [List.foldlM_cons, List.foldlM_nil]
    rw [hT.eq, hU.eq]
    dsimp only
    have hb := broadcastBmm_box (n := n) (m := m) (p := 4) (k := 4) (q := 4) (f := fun i j l => T.matrix.get [i, j, l])
      (g := fun i j l => U.matrix.get [i, j, l]) rd v (.fl d) (.fl d') h
    rw [show flTag d v = (⟨.fl d, v⟩ : Tag) from rfl, show flTag d' v = (⟨.fl d', v⟩ : Tag) from rfl, hb, ok_bind, ok_bind, pure_ok,
      ok_bind, ofMatrix_box, ok_bind]
  · rw [C124_compose_sizes hT hU h, T3T.compose]
    simp only [List.foldlM_cons]
    rw [broadcastBmm_refuses rd hT.1 (by simp) hU.1 h]
    rfl

/-- What the classes represent: a rigid motion, a translation, a scaling by factors that are not zero, a rotation, in every row -/
def RegularT (T : T3T) (n : ℕ) : Prop :=
  ∀ i < n, match T.kind with
    | .plain => IsRigid (mat T i)
    | .translate => ∃ p, mat T i = mkHom 1 p
    | .scale => ∃ s : V3, (∀ j, s j ≠ 0) ∧ mat T i = mkHom (Matrix.diagonal s) 0
    | .rotate => ∃ R, IsRot R ∧ mat T i = mkHom R 0

theorem matrixInverse_mat (hT : IsT T n d v) :
    ∃ f, T.matrixInverse = .ok (box (flTag d v) n 4 4 f) ∧ ∀ i < n, (.of fun r c : Fin 4 => f i r c) = invOf T.kind (mat T i) := by
  rw [hT.eq]
  rcases hk : T.kind with _ | _ | _ | _ <;> simp only [T3T.matrixInverse]
  · refine ⟨_, invertMatrixT_box, fun i hi => ?_⟩
    rw [mat_box hi]
    ext r c
    fin_cases r <;> fin_cases c <;> simp [invOf, invertMatrix, Finset.sum_range_succ]
  · refine ⟨_, invertTranslateT_box, fun i hi => ?_⟩
    rw [mat_box hi]
    ext r c
    fin_cases r <;> fin_cases c <;> simp [invOf, invertTranslate]
  · refine ⟨_, invertScaleT_box, fun i hi => ?_⟩
    rw [mat_box hi]
    ext r c
    fin_cases r <;> fin_cases c <;> simp [invOf, invertScale]
  · refine ⟨_, permute_box, fun i hi => ?_⟩
    rw [mat_box hi]
    rfl

/-- Every row of `t.inverse()` is the inverse of the row of `t`, for the four classes. -/
theorem C124_inverse (hT : IsT T n d v) (hR : RegularT T n) :
    ∃ R, T.inverse = .ok R ∧ IsT R n d v ∧ Honest R ∧ R.kind = .plain ∧
      ∀ i < n, mat T i * mat R i = 1 ∧ mat R i * mat T i = 1 := by
  obtain ⟨f, hf, hi⟩ := matrixInverse_mat hT
  rw [T3T.inverse, hf, ok_bind, ofMatrix_box]
  refine ⟨_, rfl, ⟨rfl, rfl⟩, ⟨rfl, rfl⟩, rfl, fun i hin => ?_⟩
  rw [mat_box hin, hi i hin]
  refine invOf_spec (t := ⟨T.kind, [mat T i], .f32, 0, .f32, 0⟩) ?_ (by simp)
  have := hR i hin
  unfold Regular
  rcases hk : T.kind with _ | _ | _ | _ <;> rw [hk] at this <;> simpa using this

/-! ## Points -/

/-- A point in homogeneous coordinates -/
def homog (x : V3) : Fin 4 → ℝ := ![x 0, x 1, x 2, 1]
/-- Point `j` of row `i` of a tensor of shape `(N, P, 3)` -/
def pointAt (q : Tn ℝ) (i j : ℕ) : V3 := vecAt 3 q [i, j]

theorem rawPts_eq {f g : ℕ → ℕ → ℕ → ℝ} {X : Tn ℝ} {M : M4} {i j : ℕ} (hX : ∀ l < 3, f (bcRow m i) j l = X.get [bcRow m i, j, l])
    (hM : (.of fun r c : Fin 4 => g (bcRow n i) r c) = M) (l : Fin 4) :
    rawPts rd (.fl dp) (.fl d) n m f g i j l = (asDt rd dp d M *ᵥ homog (pointAt X (bcRow m i) j)) l := by
  subst hM
  simp only [rawPts, homC, Finset.sum_range_succ, Finset.sum_range_zero, zero_add, Matrix.mulVec, dotProduct, Fin.sum_univ_four,
    asDt_apply, Matrix.of_apply]
  rw [if_pos (by omega), if_pos (by omega), if_pos (by omega), if_neg (by omega), hX 0 (by omega), hX 1 (by omega), hX 2 (by omega)]
  simp only [homog, pointAt, vecAt, Matrix.cons_val_zero, Matrix.cons_val_one, Matrix.cons_val]
  show _ * conv2 rd _ _ (g _ l 0) + _ * conv2 rd _ _ (g _ l 1) + _ * conv2 rd _ _ (g _ l 2) + 1 * conv2 rd _ _ (g _ l 3) = _
  simp only [List.cons_append, List.nil_append]
  show _ = conv2 rd _ _ (g _ l 0) * X.get [_, j, 0] + conv2 rd _ _ (g _ l 1) * X.get [_, j, 1] +
    conv2 rd _ _ (g _ l 2) * X.get [_, j, 2] + conv2 rd _ _ (g _ l 3) * 1
  ring

/-- The division of the homogeneous coordinates, for any `eps` -/
theorem points_core {X : Tn ℝ} {f : ℕ → ℕ → ℕ → ℝ} (hT : IsT T n d v) (hf : ∀ i < m, ∀ j < P, ∀ l < 3, f i j l = X.get [i, j, l])
    (eps : Option ℝ) (h : Compat m n) :
    ∃ g, T.pointsOut rd (box (flTag dp v) m P 3 f) eps = .ok (box (flTag dp v) (bsize m n) P 3 g) ∧
      ∀ i < bsize m n, ∀ j < P, ∀ l : Fin 3, g i j l =
        (asDt rd dp d (mat T (bcRow n i)) *ᵥ homog (pointAt X (bcRow m i) j)) l.castSucc /
          clampDenom eps ((asDt rd dp d (mat T (bcRow n i)) *ᵥ homog (pointAt X (bcRow m i) j)) 3) := by
  have key : ∀ i < bsize m n, ∀ j < P, ∀ l : Fin 4,
      rawPts rd (.fl dp) (.fl d) n m f (fun i j l => T.matrix.get [i, j, l]) i j l =
        (asDt rd dp d (mat T (bcRow n i)) *ᵥ homog (pointAt X (bcRow m i) j)) l := by
    intro i hi j hj l
    obtain ⟨h1, h2⟩ := bcRow_lt h hi
    exact rawPts_eq (fun l hl => hf _ h1 j hj l hl) rfl l
  rw [show T.pointsOut rd = T3T.pointsOut rd ⟨T.kind, box (flTag d v) n 4 4 fun i j l => T.matrix.get [i, j, l], T.dtype, T.device⟩ from
    congrArg (T3T.pointsOut rd) hT.eq]
  rcases eps with _ | e
  · refine ⟨_, pointsOut_box rd h, fun i hi j hj l => ?_⟩
    have h1 := key i hi j hj l.castSucc
    have h3 := key i hi j hj 3
    rw [Fin.val_castSucc] at h1
    rw [← h1, ← h3]
    rfl
  · refine ⟨_, pointsOut_eps_box rd e h, fun i hi j hj l => ?_⟩
    have h1 := key i hi j hj l.castSucc
    have h3 := key i hi j hj 3
    rw [Fin.val_castSucc] at h1
    rw [← h1, ← h3]
    rfl

theorem homog_affine {M : M4} (h : IsAffine M) (x : V3) :
    (M *ᵥ homog x) 3 = 1 ∧ ∀ l : Fin 3, (M *ᵥ homog x) l.castSucc = act M x l := by
  constructor
  · simp only [Matrix.mulVec, dotProduct]
    rw [show M 3 = ![0, 0, 0, 1] from h]
    simp [homog, Fin.sum_univ_four]
  · intro l
    simp [Matrix.mulVec, dotProduct, homog, act, Fin.sum_univ_four]

theorem homog_div {W : Fin 4 → ℝ} {x : V3} (h0 : W 3 ≠ 0) (h : ∀ l : Fin 3, x l = W l.castSucc / W 3) : W = W 3 • homog x := by
  have e0 : x 0 = W 0 / W 3 := h 0
  have e1 : x 1 = W 1 / W 3 := h 1
  have e2 : x 2 = W 2 / W 3 := h 2
  funext l
  fin_cases l
  · show W 0 = W 3 * x 0; rw [e0]; field_simp
  · show W 1 = W 3 * x 1; rw [e1]; field_simp
  · show W 2 = W 3 * x 2; rw [e2]; field_simp
  · show W 3 = W 3 * 1; ring

theorem floats_zero : (0 : ℝ) ∈ floats d := ⟨0, 0, by simp, by simp⟩
theorem floats_one : (1 : ℝ) ∈ floats d := ⟨1, 0, by cases d <;> norm_num [digits], by simp⟩

/-- A conversion keeps the last row `0 0 0 1` -/
theorem asDt_affine (hr : IsRounding rd) {M : M4} (h : IsAffine M) : IsAffine (asDt rd d d' M) := by
  unfold asDt
  split_ifs
  · exact h
  · funext c
    have : M 3 c = (![0, 0, 0, 1] : Fin 4 → ℝ) c := congrFun h c
    show rd d (M 3 c) = _
    rw [this]
    fin_cases c <;> simp [hr.fix _ _ floats_zero, hr.fix _ _ floats_one]

/-- The clamp of `eps` does nothing to a denominator 1 if `eps ≤ 1` -/
theorem clamp_one {eps : Option ℝ} (h : ∀ e ∈ eps, e ≤ 1) : clampDenom eps 1 = 1 := by
  rcases eps with _ | e
  · rfl
  · have := h e rfl
    simp [clampDenom, max_eq_left this]

/-- `transform_points` of points of shape `(M, P, 3)`: row `i` of the transform is applied to the points of row `i`; the result has
the dtype of the points.  `eps ≤ 1` changes nothing. -/
theorem C124_points (hr : IsRounding rd) {X : Tn ℝ} {eps : Option ℝ} (hT : IsT T n d v) (hX : HasMat X [m] P 3 (flTag dp v))
    (ha : ∀ i < n, IsAffine (mat T i)) (he : ∀ e ∈ eps, e ≤ 1) (h : Compat m n) :
    ∃ R, T.transformPoints rd X eps = .ok R ∧ HasMat R [bsize m n] P 3 (flTag dp v) ∧
      ∀ i < bsize m n, ∀ j < P, pointAt R i j = act (asDt rd dp d (mat T (bcRow n i))) (pointAt X (bcRow m i) j) := by
  obtain ⟨g, hg, hv⟩ := points_core (rd := rd) (dp := dp) (X := X) hT (fun _ _ _ _ _ _ => rfl) eps h
  have hX' := eta3 (a := X) hX.1
  rw [hX.2] at hX'
  refine ⟨_, (congrArg (T.transformPoints rd · eps) hX').trans ((transformPoints_of_box rd T eps).trans hg), ⟨rfl, rfl⟩,
    fun i hi j hj => ?_⟩
  funext l
  refine (box_get (t := flTag dp v) hi hj l.isLt).trans ((hv i hi j hj l).trans ?_)
  obtain ⟨h1, h2⟩ := homog_affine (asDt_affine (d := dp) (d' := d) hr (ha _ (bcRow_lt h hi).2)) (pointAt X (bcRow m i) j)
  rw [h1, h2, clamp_one he, div_one]

/-- Any matrices (also with a projective last row), `eps=None`, denominators that are not 0 -/
theorem C124_points_projective {X : Tn ℝ} (hT : IsT T n d v) (hX : HasMat X [m] P 3 (flTag dp v))
    (h : Compat m n) : ∃ R, T.transformPoints rd X none = .ok R ∧ HasMat R [bsize m n] P 3 (flTag dp v) ∧
      ∀ i < bsize m n, ∀ j < P, (asDt rd dp d (mat T (bcRow n i)) *ᵥ homog (pointAt X (bcRow m i) j)) 3 ≠ 0 →
        ∃ w : ℝ, w ≠ 0 ∧ asDt rd dp d (mat T (bcRow n i)) *ᵥ homog (pointAt X (bcRow m i) j) = w • homog (pointAt R i j) := by
  obtain ⟨g, hg, hv⟩ := points_core (rd := rd) (dp := dp) (X := X) hT (fun _ _ _ _ _ _ => rfl) none h
  have hX' := eta3 (a := X) hX.1
  rw [hX.2] at hX'
  refine ⟨_, (congrArg (T.transformPoints rd · none) hX').trans ((transformPoints_of_box rd T none).trans hg), ⟨rfl, rfl⟩,
    fun i hi j hj h0 => ⟨_, h0, ?_⟩⟩
  exact homog_div h0 fun l => (box_get (t := flTag dp v) hi hj l.isLt).trans (hv i hi j hj l)

/-- Any matrices and any `eps > 0`: denominators of absolute value at least `eps` divide unchanged, all others are replaced by `eps`
or by `-eps` according to their sign (0 counts as positive), l.308-314 -/
theorem C124_points_eps {X : Tn ℝ} {e : ℝ} (he : 0 < e) (hT : IsT T n d v) (hX : HasMat X [m] P 3 (flTag dp v))
    (h : Compat m n) : ∃ R, T.transformPoints rd X (some e) = .ok R ∧ HasMat R [bsize m n] P 3 (flTag dp v) ∧
      ∀ i < bsize m n, ∀ j < P, ∀ W, W = asDt rd dp d (mat T (bcRow n i)) *ᵥ homog (pointAt X (bcRow m i) j) →
        (e ≤ |W 3| → W = W 3 • homog (pointAt R i j)) ∧
        (0 ≤ W 3 → W 3 < e → ∀ l : Fin 3, W l.castSucc = e * pointAt R i j l) ∧
        (-e < W 3 → W 3 < 0 → ∀ l : Fin 3, W l.castSucc = -e * pointAt R i j l) := by
  obtain ⟨g, hg, hv⟩ := points_core (rd := rd) (dp := dp) (X := X) hT (fun _ _ _ _ _ _ => rfl) (some e) h
  have hX' := eta3 (a := X) hX.1
  rw [hX.2] at hX'
  refine ⟨_, (congrArg (T.transformPoints rd · (some e)) hX').trans ((transformPoints_of_box rd T (some e)).trans hg), ⟨rfl, rfl⟩,
    fun i hi j hj W hW => ?_⟩
  have hp : ∀ l : Fin 3, pointAt (box (flTag dp v) (bsize m n) P 3 g) i j l = W l.castSucc / clampDenom (some e) (W 3) := fun l => by
    rw [hW]
    exact (box_get (t := flTag dp v) hi hj l.isLt).trans (hv i hi j hj l)
  refine ⟨fun ha => ?_, fun h0 h1 l => ?_, fun h0 h1 l => ?_⟩
  · have hw : W 3 ≠ 0 := fun h0 => by rw [h0, abs_zero] at ha; linarith
    refine homog_div hw fun l => ?_
    rw [hp l]
    congr 1
    rcases lt_or_gt_of_ne hw with hn | hpos
    · rw [abs_of_neg hn] at ha
      simp [clampDenom, max_eq_left ha, hn, hn.not_gt, hn.ne, abs_of_neg hn]
    · rw [abs_of_pos hpos] at ha
      simp [clampDenom, max_eq_left ha, hpos, hpos.ne', abs_of_pos hpos]
  · rw [hp l]
    have hc : clampDenom (some e) (W 3) = e := by
      rcases h0.eq_or_lt with hz | hpos
      · simp [clampDenom, ← hz, max_eq_right he.le]
      · simp [clampDenom, hpos, hpos.ne', abs_of_pos hpos, max_eq_right h1.le]
    rw [hc]
    field_simp
  · rw [hp l]
    have hc : clampDenom (some e) (W 3) = -e := by
      simp [clampDenom, h1, h1.not_gt, h1.ne, abs_of_neg h1, max_eq_right (show -W 3 ≤ e by linarith)]
    rw [hc]
    field_simp

/-- Points of shape `(P, 3)`: all rows of the transform are applied to the same points.  One row: the result has shape `(P, 3)`. -/
theorem C124_points_flat (hr : IsRounding rd) {X : Tn ℝ} {eps : Option ℝ} (hT : IsT T n d v) (hX : HasMat X [] P 3 (flTag dp v))
    (ha : ∀ i < n, IsAffine (mat T i)) (he : ∀ e ∈ eps, e ≤ 1) :
    ∃ R, T.transformPoints rd X eps = .ok R ∧
      (n = 1 → HasMat R [] P 3 (flTag dp v) ∧ ∀ j < P, vecAt 3 R [j] = act (asDt rd dp d (mat T 0)) (vecAt 3 X [j])) ∧
      (n ≠ 1 → HasMat R [n] P 3 (flTag dp v) ∧
        ∀ i < n, ∀ j < P, pointAt R i j = act (asDt rd dp d (mat T i)) (vecAt 3 X [j])) := by
  have h : Compat 1 n := .inr (.inl rfl)
  set Y : Tn ℝ := box (flTag dp v) 1 P 3 fun _ j l => X.get [j, l] with hY
  obtain ⟨g, hg, hv⟩ := points_core (rd := rd) (dp := dp) (X := Y) (m := 1) (P := P)
    (f := fun _ j l => X.get [j, l]) hT (fun i hi j hj l hl => by rw [hY, box_get hi hj hl]) eps h
  have hX' := eta2 (a := X) hX.1
  rw [hX.2] at hX'
  have hp : ∀ j < P, pointAt Y 0 j = vecAt 3 X [j] := fun j hj => by
    funext l
    exact box_get (t := flTag dp v) (by omega) hj l.isLt
  have hb : bsize 1 n = n := if_pos rfl
  rw [hb] at hg hv
  have hval : ∀ i < n, ∀ j < P, ∀ l : Fin 3, g i j l = act (asDt rd dp d (mat T i)) (vecAt 3 X [j]) l := by
    intro i hi j hj l
    have hrow : bcRow n i = i := by unfold bcRow; split_ifs <;> omega
    have h0 : bcRow 1 i = 0 := if_pos rfl
    have := hv i hi j hj l
    rw [hrow, h0, hp j hj] at this
    obtain ⟨h1, h2⟩ := homog_affine (asDt_affine (d := dp) (d' := d) hr (ha i hi)) (vecAt 3 X [j])
    rw [this, h1, h2, clamp_one he, div_one]
  have hrun : T.transformPoints rd X eps = if n = 1 then reshape (box (flTag dp v) n P 3 g) [P, 3] else .ok (box (flTag dp v) n P 3 g) := by
    refine (congrArg (T.transformPoints rd · eps) hX').trans ((transformPoints_flat rd T eps).trans ?_)
    rw [hg, ok_bind]
    simp
  rw [hrun]
  split_ifs with h1
  · subst h1
    rw [reshape_box1]
    refine ⟨_, rfl, fun _ => ⟨⟨rfl, rfl⟩, fun j hj => ?_⟩, fun h => absurd rfl h⟩
    funext l
    exact (flatB_get (t := flTag dp v) hj l.isLt).trans (hval 0 (by omega) j hj l)
  · refine ⟨_, rfl, fun h => absurd h h1, fun _ => ⟨⟨rfl, rfl⟩, fun i hi j hj => ?_⟩⟩
    funext l
    exact (box_get (t := flTag dp v) hi hj l.isLt).trans (hval i hi j hj l)

/-- Points with another number of dimensions: `ValueError` -/
theorem C124_points_rank {X : Tn ℝ} (eps : Option ℝ) (h2 : X.shape.length ≠ 2) (h3 : X.shape.length ≠ 3) :
    T.transformPoints rd X eps = .error .valueError := by
  have : T.pointsOut rd X eps = .error .valueError := by
    unfold T3T.pointsOut
    split
    · rename_i hq
      exact absurd (by rw [hq]; rfl) h3
    · rfl
  rw [T3T.transformPoints, if_neg h2, this]
  rfl

/-- Batch sizes that differ, none of them 1: `ValueError` -/
theorem C124_points_sizes {X : Tn ℝ} {eps : Option ℝ} (hT : IsT T n d v) (hX : HasMat X [m] P 3 (flTag dp v')) (h : ¬ Compat m n) :
    T.transformPoints rd X eps = .error .valueError := by
  have hX' := eta3 (a := X) hX.1
  rw [hX.2] at hX'
  rw [hX', transformPoints_of_box, hT.eq]
  simp only [T3T.pointsOut, box_shape, box_tag]
  rw [full_box, cat_box rfl, ok_bind, transposeLast_box, ok_bind,
    broadcastBmm_refuses rd (n := m) (m := n) (s := [P, 3 + 1]) (s' := [4, 4]) rfl (by simp) rfl h]
  rfl

/-- Different devices: `RuntimeError` -/
theorem C124_points_devices {X : Tn ℝ} {eps : Option ℝ} (hT : IsT T n d v) (hX : HasMat X [m] P 3 (flTag dp v')) (hv : v' ≠ v)
    (h : Compat m n) : T.transformPoints rd X eps = .error .runtimeError := by
  have hX' := eta3 (a := X) hX.1
  rw [hX.2] at hX'
  rw [hX', transformPoints_of_box, hT.eq]
  simp only [T3T.pointsOut, box_shape, box_tag]
  rw [full_box, cat_box rfl, ok_bind, transposeLast_box, ok_bind, broadcastBmm_devices rd (by exact hv) h]
  rfl

/-! ## Normals and shape operators -/

/-- The linear part of a homogeneous matrix -/
def linPart (M : M4) : M3 := .of fun r c => M r.castSucc c.castSucc

theorem inverse_box (hT : IsT T n d v) : ∃ f, T.inverse = .ok ⟨.plain, box (flTag d v) n 4 4 f, .fl d, v⟩ := by
  obtain ⟨f, hf, -⟩ := matrixInverse_mat hT
  rw [T3T.inverse, hf, ok_bind, ofMatrix_box]
  exact ⟨f, rfl⟩

/-- `transform_normals` multiplies row vectors by the linear part of the inverse. -/
theorem C124_normals {X : Tn ℝ} (hT : IsT T n d v) (hX : HasMat X [m] P 3 (flTag dp v)) (h : Compat m n) :
    ∃ I R, T.inverse = .ok I ∧ T.transformNormals rd X = .ok R ∧ HasMat R [bsize m n] P 3 (flTag dp v) ∧
      ∀ i < bsize m n, ∀ j < P, pointAt R i j = pointAt X (bcRow m i) j ᵥ* asDt rd dp d (linPart (mat I (bcRow n i))) := by
  obtain ⟨f, hf⟩ := inverse_box hT
  have hX' := eta3 (a := X) hX.1
  rw [hX.2] at hX'
  rw [T3T.transformNormals, if_neg (by rw [hX.1]; simp), hf, ok_bind]
  dsimp only
  rw [sliceRows_box (by omega), ok_bind, sliceLast_box (by omega), ok_bind]
  have hb := broadcastBmm_box (n := m) (m := n) (p := P) (k := 3) (q := 3) (f := fun i j l => X.get [i, j, l])
    (g := fun i j l => f i j (0 + l)) rd v (.fl dp) (.fl d) h
  rw [congrArg (broadcastBmm rd · _) hX']
  rw [show flTag d v = (⟨.fl d, v⟩ : Tag) from rfl, show flTag dp v = (⟨.fl dp, v⟩ : Tag) from rfl, hb, ok_bind,
    if_neg (by rw [hX.1]; simp)]
  refine ⟨_, _, rfl, rfl, ⟨rfl, rfl⟩, fun i hi j hj => ?_⟩
  funext l
  refine (box_get (t := flTag dp v) hi hj l.isLt).trans ?_
  rw [mat_box (bcRow_lt h hi).2]
  simp only [Finset.sum_range_succ, Finset.sum_range_zero, zero_add, Matrix.vecMul, dotProduct, Fin.sum_univ_three, asDt_apply,
    linPart, Matrix.of_apply]
  rfl

/-- Normals of shape `(P, 3)` -/
theorem C124_normals_flat {X : Tn ℝ} (hT : IsT T n d v) (hX : HasMat X [] P 3 (flTag dp v)) :
    ∃ I R, T.inverse = .ok I ∧ T.transformNormals rd X = .ok R ∧
      (n = 1 → HasMat R [] P 3 (flTag dp v) ∧ ∀ j < P, vecAt 3 R [j] = vecAt 3 X [j] ᵥ* asDt rd dp d (linPart (mat I 0))) ∧
      (n ≠ 1 → HasMat R [n] P 3 (flTag dp v) ∧
        ∀ i < n, ∀ j < P, pointAt R i j = vecAt 3 X [j] ᵥ* asDt rd dp d (linPart (mat I i))) := by
  have h : Compat 1 n := .inr (.inl rfl)
  have hb1 : bsize 1 n = n := if_pos rfl
  obtain ⟨f, hf⟩ := inverse_box hT
  have hX' := eta2 (a := X) hX.1
  rw [hX.2] at hX'
  rw [T3T.transformNormals, if_neg (by rw [hX.1]; simp), hf, ok_bind]
  dsimp only
  rw [sliceRows_box (by omega), ok_bind, sliceLast_box (by omega), ok_bind]
  have hb := broadcastBmm_box (n := 1) (m := n) (p := P) (k := 3) (q := 3) (f := fun _ j l => X.get [j, l])
    (g := fun i j l => f i j (0 + l)) rd v (.fl dp) (.fl d) h
  rw [hb1] at hb
  rw [congrArg (broadcastBmm rd · _) hX', broadcastBmm_flat, hX.1]
  rw [show flTag d v = (⟨.fl d, v⟩ : Tag) from rfl, show flTag dp v = (⟨.fl dp, v⟩ : Tag) from rfl, hb, ok_bind]
  have e : ∀ i < n, ∀ j < P, ∀ l : Fin 3, (∑ x ∈ Finset.range 3, X.get [j, x] * conv2 rd (.fl dp) (.fl d) (f (bcRow n i) x (0 + l))) =
      (vecAt 3 X [j] ᵥ* asDt rd dp d (linPart (mat ⟨.plain, box (flTag d v) n 4 4 f, .fl d, v⟩ i))) l := by
    intro i hi j hj l
    have hrow : bcRow n i = i := by unfold bcRow; split_ifs <;> omega
    rw [mat_box hi, hrow]
    simp only [Finset.sum_range_succ, Finset.sum_range_zero, zero_add, Matrix.vecMul, dotProduct, Fin.sum_univ_three, asDt_apply,
      linPart, Matrix.of_apply]
    rfl
  by_cases h1 : n = 1
  · subst h1
    rw [if_pos ⟨rfl, rfl⟩]
    simp only [List.nil_append]
    rw [reshape_box1]
    refine ⟨_, _, rfl, rfl, fun _ => ⟨⟨rfl, rfl⟩, fun j hj => ?_⟩, fun h => absurd rfl h⟩
    funext l
    exact (flatB_get (t := flTag dp v) hj l.isLt).trans (e 0 (by omega) j hj l)
  · rw [if_neg (by simp [h1])]
    refine ⟨_, _, rfl, rfl, fun h => absurd h h1, fun _ => ⟨⟨rfl, rfl⟩, fun i hi j hj => ?_⟩⟩
    funext l
    exact (box_get (t := flTag dp v) hi hj l.isLt).trans (e i hi j hj l)

/-- Duality: a normal and a tangent keep their inner product if one is transformed by `transform_normals` and the other by the linear
part of the transform. -/
theorem C124_normals_dual {X : Tn ℝ} (hT : IsT T n d v) (hR : RegularT T n) (hX : HasMat X [m] P 3 (flTag d v)) (h : Compat m n) :
    ∃ R, T.transformNormals rd X = .ok R ∧ HasMat R [bsize m n] P 3 (flTag d v) ∧
      ∀ i < bsize m n, ∀ j < P, ∀ u : V3, pointAt R i j ⬝ᵥ actDir (mat T (bcRow n i)) u = pointAt X (bcRow m i) j ⬝ᵥ u := by
  obtain ⟨I, R, hI, hr, hs, hv⟩ := C124_normals (rd := rd) hT hX h
  obtain ⟨I', hI', -, -, -, hinv⟩ := C124_inverse hT hR
  rw [hI] at hI'
  cases hI'
  refine ⟨R, hr, hs, fun i hi j hj u => ?_⟩
  have hrow := (bcRow_lt h hi).2
  have h1 := (hinv _ hrow).2
  have ha : IsAffine (mat T (bcRow n i)) := by
    have := hR _ hrow
    rcases hk : T.kind with _ | _ | _ | _ <;> rw [hk] at this <;> simp only at this
    · exact this.2
    · obtain ⟨p, e⟩ := this; rw [e]; exact mkHom_affine _ _
    · obtain ⟨s, -, e⟩ := this; rw [e]; exact mkHom_affine _ _
    · obtain ⟨p, -, e⟩ := this; rw [e]; exact mkHom_affine _ _
  have hd : actDir (mat T (bcRow n i)) u = linPart (mat T (bcRow n i)) *ᵥ u := by
    funext l
    simp [actDir, linPart, Matrix.mulVec, dotProduct, Fin.sum_univ_three]
  have hl : linPart (mat I (bcRow n i)) * linPart (mat T (bcRow n i)) = 1 := by
    ext r c
    have := congrFun (congrFun h1 r.castSucc) c.castSucc
    rw [Matrix.mul_apply, Fin.sum_univ_four, show mat T (bcRow n i) 3 = _ from ha] at this
    simp only [linPart, Matrix.mul_apply, Matrix.of_apply, Fin.sum_univ_three]
    rw [show (![0, 0, 0, 1] : Fin 4 → ℝ) c.castSucc = 0 by fin_cases c <;> rfl, mul_zero, add_zero] at this
    refine this.trans ?_
    simp [Matrix.one_apply]
  rw [hv i hi j hj, hd, asDt, if_pos rfl, Matrix.dotProduct_mulVec, Matrix.vecMul_vecMul, hl, Matrix.vecMul_one]

/-- `transform_shape_operator`: the shape operators of row `i` become `Lᵀ S L`, `L` the linear part of the inverse of row `i`. -/
theorem C124_shape_operator {X : Tn ℝ} (hT : IsT T n d v) (hX : HasMat X [m] 3 3 (flTag d' v)) (h : Compat m n) :
    ∃ I R, T.inverse = .ok I ∧ T.transformShapeOperator rd X = .ok R ∧ HasMat R [bsize m n] 3 3 (flTag d v) ∧
      ∀ i < bsize m n, matAt 3 3 R [i] = (linPart (mat I (bcRow n i)))ᵀ *
        asDt rd d d' (matAt 3 3 X [bcRow m i] * asDt rd d' d (linPart (mat I (bcRow n i)))) := by
  obtain ⟨f, hf⟩ := inverse_box hT
  have hX' := eta3 (a := X) hX.1
  rw [hX.2] at hX'
  rw [T3T.transformShapeOperator, if_neg (by rw [hX.1]; simp), hf, ok_bind]
  dsimp only
  rw [sliceRows_box (by omega), ok_bind, sliceLast_box (by omega), ok_bind, permute_box, ok_bind]
  have hb := broadcastBmm_box (n := m) (m := n) (p := 3) (k := 3) (q := 3) (f := fun i j l => X.get [i, j, l])
    (g := fun i j l => f i j (0 + l)) rd v (.fl d') (.fl d) h
  rw [congrArg (broadcastBmm rd · _) hX', show flTag d v = (⟨.fl d, v⟩ : Tag) from rfl,
    show flTag d' v = (⟨.fl d', v⟩ : Tag) from rfl, hb, ok_bind]
  have hc : Compat n (bsize m n) := by unfold Compat at *; unfold bsize; split_ifs <;> omega
  have hbs : bsize n (bsize m n) = bsize m n := by unfold Compat at h; unfold bsize; split_ifs <;> omega
  have hrow : ∀ i < bsize m n, bcRow (bsize m n) i = i := fun i hi => by unfold bcRow; split_ifs <;> omega
  have hb2 := broadcastBmm_box (n := n) (m := bsize m n) (p := 3) (k := 3) (q := 3) (f := fun i j l => f i l (0 + j))
    (g := fun i j l => ∑ x ∈ Finset.range 3, X.get [bcRow m i, j, x] * conv2 rd (.fl d') (.fl d) (f (bcRow n i) x (0 + l)))
    rd v (.fl d) (.fl d') hc
  rw [hbs] at hb2
  rw [hb2, ok_bind]
  have hre : ∀ r : Tn ℝ, (∃ g, r = box ⟨.fl d, v⟩ (bsize m n) 3 3 g) →
      (if r.shape.head? = some 1 ∧ X.shape.length = 3 then reshape r X.shape else pure r) = .ok r := by
    rintro r ⟨g, rfl⟩
    split_ifs with h1
    · have h1' : bsize m n = 1 := by simpa using h1.1
      have hm : m = 1 := by unfold bsize at h1'; split_ifs at h1' <;> omega
      rw [hX.1, h1', hm]
      exact reshape_self_box
    · rfl
  rw [hre _ ⟨_, rfl⟩]
  refine ⟨_, _, rfl, rfl, ⟨rfl, rfl⟩, fun i hi => ?_⟩
  rw [mat_box (bcRow_lt h hi).2, matAt_box hi, hrow i hi]
  ext r c
  simp only [Finset.sum_range_succ, Finset.sum_range_zero, zero_add, Matrix.mul_apply, Fin.sum_univ_three, asDt_apply,
    linPart, Matrix.of_apply, Matrix.transpose_apply, matAt]
  rfl

/-- `(N, P, 3, 3)`, which the docstring allows, is refused for every transform. -/
theorem C124_shape_operator_batched {X : Tn ℝ} (hT : IsT T n d v) (hX : X.shape.length = 4) :
    ∃ e, T.transformShapeOperator rd X = .error e := by
  obtain ⟨f, hf⟩ := inverse_box hT
  rw [T3T.transformShapeOperator, if_neg (by omega), hf, ok_bind]
  dsimp only
  rw [sliceRows_box (by omega), ok_bind, sliceLast_box (by omega), ok_bind, permute_box, ok_bind]
  obtain ⟨a, s, hs⟩ : ∃ a s, X.shape = a :: s := List.exists_cons_of_length_pos (by omega)
  have hl : s.length = 3 := by rw [hs] at hX; simpa using hX
  suffices h : ∃ e, broadcastBmm rd X (box (flTag d v) n 3 3 fun i j l => f i j (0 + l)) = .error e by
    obtain ⟨e, he⟩ := h
    exact ⟨e, by rw [he]; rfl⟩
  have hbmm : ∀ (a b : Tn ℝ), a.shape.length = 4 → bmm a b = .error .runtimeError := by
    intro a b ha
    unfold bmm
    split
    · rename_i h1 _; rw [h1] at ha; simp at ha
    · rfl
  rw [broadcastBmm]
  simp only
  rw [if_neg (by omega), bmmExpand]
  simp only [hs, box_shape, List.head?_cons]
  by_cases h1 : a = n
  · rw [if_neg (by simpa using h1), ok_bind]
    exact ⟨_, hbmm _ _ hX⟩
  · rw [if_pos h1]
    by_cases h2 : a = 1
    · rw [if_neg (by simp [h2]), if_pos h2, expand3, if_neg (by omega)]
      exact ⟨_, rfl⟩
    · by_cases h3 : n = 1
      · rw [if_neg (by simp [h3]), if_neg h2, pure_ok, ok_bind, if_pos h3, h3, expand3_box, ok_bind, pure_ok, ok_bind]
        exact ⟨_, hbmm _ _ hX⟩
      · rw [if_pos (by simp [h2, h3])]
        exact ⟨_, rfl⟩

/-! ## `stack` and `__getitem__` -/

/-- Number of rows, `len(t)` -/
def T3T.rows (T : T3T) : ℕ := T.matrix.shape.headD 0

theorem ew_fl {a : Tag} {b : DType} (ha : ∃ d, a = flTag d v) :
    ∃ d, ew a (flTag b v) = .ok (flTag d v) ∧ (d = .f64 ↔ a = flTag .f64 v ∨ b = .f64) := by
  obtain ⟨d, rfl⟩ := ha
  cases d <;> cases b <;> exact ⟨_, by simp [ew, flTag]; rfl, by simp [flTag]⟩

theorem stackT_fl (ts : List Tag) (h : ∀ t ∈ ts, ∃ d, t = flTag d v) (hn : ts ≠ []) :
    ∃ d, stackT ts = .ok (flTag d v) ∧ (d = .f64 ↔ flTag .f64 v ∈ ts) := by
  rcases ts with _ | ⟨a, l⟩
  · exact absurd rfl hn
  · simp only [stackT]
    clear hn
    induction l generalizing a with
    | nil =>
      obtain ⟨d, rfl⟩ := h a (by simp)
      exact ⟨d, rfl, by cases d <;> simp [flTag]⟩
    | cons b l ih =>
      obtain ⟨b', rfl⟩ := h b (by simp)
      obtain ⟨d, hd, hd'⟩ := ew_fl (v := v) (b := b') (h a (by simp))
      obtain ⟨d2, h2, h2'⟩ := ih (flTag d v) (by
        intro t ht
        rcases List.mem_cons.1 ht with rfl | ht
        · exact ⟨_, rfl⟩
        · exact h t (by simp [ht]))
      refine ⟨d2, by rw [List.foldlM_cons, hd, ok_bind]; exact h2, ?_⟩
      have e1 : flTag DType.f64 v = flTag d v ↔ d = .f64 := by cases d <;> simp [flTag]
      have e2 : flTag DType.f64 v = flTag b' v ↔ b' = .f64 := by cases b' <;> simp [flTag]
      rw [h2', List.mem_cons, List.mem_cons, List.mem_cons, e1, hd', e2]
      constructor
      · rintro ((h | h) | h)
        · exact .inl h.symm
        · exact .inr (.inl h)
        · exact .inr (.inr h)
      · rintro (h | h | h)
        · exact .inl (.inl h.symm)
        · exact .inl (.inr h)
        · exact .inr h

/-- `t.stack(u, …)`: the rows of all transforms one after another; `float64` if one of them is. -/
theorem C124_stack {us : List T3T} (h : ∀ u ∈ T :: us, ∃ k d', IsT u k d' v) :
    ∃ R dr, T.stack us = .ok R ∧ (dr = .f64 ↔ ∃ u ∈ T :: us, u.matrix.tag = flTag .f64 v) ∧
      IsT R ((T :: us).map T3T.rows).sum dr v ∧ Honest R ∧ R.kind = .plain ∧
      (List.range R.rows).map (mat R) = (T :: us).flatMap fun u => (List.range u.rows).map (mat u) := by
  have hs : ∀ u ∈ T :: us, u.matrix.shape = [u.rows, 4, 4] := by
    intro u hu
    obtain ⟨k, d', hk⟩ := h u hu
    rw [T3T.rows, hk.1]
    rfl
  obtain ⟨dr, h1, h2⟩ := stackT_fl (v := v) ((T :: us).map fun u => u.matrix.tag) (by
    intro t ht
    obtain ⟨u, hu, rfl⟩ := List.mem_map.1 ht
    obtain ⟨k, d', hk⟩ := h u hu
    exact ⟨d', hk.2⟩) (by simp)
  set rows := (T.matrix :: us.map (·.matrix)).flatMap fun b => (List.range (b.shape.headD 0)).map fun k => (b, k) with hrows
  have hlen : rows.length = ((T :: us).map T3T.rows).sum := by
    rw [hrows, List.length_flatMap]
    congr 1
    simp [T3T.rows]
  have hc : catFirst (T.matrix :: us.map (·.matrix)) = .ok (box (flTag dr v) rows.length 4 4 fun i r c =>
      match rows[i]? with | some (b, k) => b.get [k, r, c] | none => 0) := by
    rw [catFirst, if_pos (by
      intro b hb
      rw [← List.map_cons (f := fun u : T3T => u.matrix)] at hb
      obtain ⟨u, hu, rfl⟩ := List.mem_map.1 hb
      rw [hs u hu, hs T (by simp)]
      exact ⟨rfl, by simp⟩)]
    rw [show tags (T.matrix :: us.map (·.matrix)) = .ok (flTag dr v) by rw [tags, ← h1]; simp; rfl, ok_bind, pure_ok]
    refine congrArg Except.ok (eq_box (by rw [ofFn_shape, hs T (by simp)]; rfl) rfl fun i hi j hj l hl => ?_)
    refine (ofFn_get (by rw [hs T (by simp)]; exact valid3.2 ⟨hi, hj, hl⟩)).trans rfl
  rw [T3T.stack, hc, ok_bind, ofMatrix_box]
  refine ⟨_, dr, rfl, ?_, ⟨by rw [hlen]; rfl, rfl⟩, ⟨rfl, rfl⟩, rfl, ?_⟩
  · rw [h2]
    constructor
    · intro hm
      obtain ⟨u, hu, e⟩ := List.mem_map.1 hm
      exact ⟨u, hu, e⟩
    · rintro ⟨u, hu, e⟩
      exact List.mem_map.2 ⟨u, hu, e⟩
  · have e1 : ((T :: us).flatMap fun u => (List.range u.rows).map (mat u)) = rows.map fun bk => matAt 4 4 bk.1 [bk.2] := by
      rw [hrows, List.map_flatMap, ← List.map_cons (f := fun u : T3T => u.matrix), List.flatMap_map]
      refine List.flatMap_congr fun u _ => ?_
      rw [List.map_map]
      rfl
    rw [e1]
    refine List.ext_getElem (by simp [T3T.rows]) fun i hi hi' => ?_
    have hir : i < rows.length := by simpa using hi'
    rw [List.getElem_map, List.getElem_map, List.getElem_range, mat_box hir]
    ext r c
    simp only [Matrix.of_apply, List.getElem?_eq_getElem hir]
    rfl

/-- Transforms on different devices are not stacked. -/
theorem C124_stack_devices (hT : IsT T n d v) (hU : IsT U m d' v') (hv : v ≠ v') : T.stack [U] = .error .runtimeError := by
  rw [T3T.stack, List.map_singleton, catFirst, if_pos (by
    intro b hb
    rcases List.mem_cons.1 hb with rfl | hb
    · rw [hT.1]; simp
    · rw [List.mem_singleton.1 hb, hU.1, hT.1]; simp)]
  rw [show tags [T.matrix, U.matrix] = stackT [T.matrix.tag, U.matrix.tag] from rfl,
    stackT_two_error _ _ (by rw [hT.2, hU.2]; exact hv)]
  rfl

theorem pyIndex_of {z : ℤ} {k : ℕ} (hk : k < n) (h : z = k ∨ z = k - n) : pyIndex n z = some k := by
  unfold pyIndex
  split_ifs <;> first | omega | (congr 1; omega)

/-- `t[k]`: a transform of one row, counted from the end if `k` is negative -/
theorem C124_getitem_int (hT : IsT T n d v) {z : ℤ} :
    (∀ k < n, z = k ∨ z = k - n → ∃ R, T.get (.int z) = .ok R ∧ IsT R 1 d v ∧ Honest R ∧ R.kind = .plain ∧ mat R 0 = mat T k) ∧
    (z < - n ∨ n ≤ z → T.get (.int z) = .error .indexError) := by
  have hh : T.matrix.shape.headD 0 = n := by rw [hT.1]; rfl
  constructor
  · intro k hk hz
    rw [T3T.get]
    simp only [hh, pyIndex_of hk hz]
    have hs : select0 T.matrix k = .ok (flatB (flTag d v) 4 4 fun r c => T.matrix.get [k, r, c]) := by
      rw [select0, hT.1]
      simp only [List.cons_append, List.nil_append]
      rw [if_pos hk, hT.2]
      refine congrArg Except.ok (eq_flatB rfl rfl fun i hi j hj => ?_)
      exact ofFn_get (valid2.2 ⟨hi, hj⟩)
    rw [hs, ok_bind, ofMatrix_flat]
    refine ⟨_, rfl, ⟨rfl, rfl⟩, ⟨rfl, rfl⟩, rfl, ?_⟩
    rw [mat_box (by omega)]
    rfl
  · intro hz
    have : pyIndex n z = none := by
      unfold pyIndex
      split_ifs <;> first | rfl | omega
    rw [T3T.get]
    simp only [hh, this]
    rfl

/-- `t[lo:hi]` -/
theorem C124_getitem_slice (hT : IsT T n d v) (lo hi : ℕ) :
    ∃ R, T.get (.slice lo hi) = .ok R ∧ IsT R (min hi n - lo) d v ∧ Honest R ∧ R.kind = .plain ∧
      ∀ i < min hi n - lo, mat R i = mat T (lo + i) := by
  rw [T3T.get]
  simp only
  have hs : sliceFirst T.matrix lo hi = .ok (box (flTag d v) (min hi n - lo) 4 4 fun i r c => T.matrix.get [lo + i, r, c]) := by
    rw [sliceFirst, hT.1]
    simp only [List.cons_append, List.nil_append]
    rw [hT.2]
    refine congrArg Except.ok (eq_box rfl rfl fun i hi j hj l hl => ?_)
    exact ofFn_get (valid3.2 ⟨hi, hj, hl⟩)
  rw [hs, ok_bind, ofMatrix_box]
  refine ⟨_, rfl, ⟨rfl, rfl⟩, ⟨rfl, rfl⟩, rfl, fun i hi => ?_⟩
  rw [mat_box hi]
  rfl

/-- `t[idx]` for a tensor of indices -/
theorem C124_getitem_idx (hT : IsT T n d v) {idx : Tn ℤ} {k : ℕ} {g : ℕ → ℕ} (hs : idx.shape = [k])
    (hd : idx.tag.dev = v ∨ idx.tag.dev = cpu) (hg : ∀ j < k, g j < n ∧ (idx.get [j] = g j ∨ idx.get [j] = g j - n)) :
    ∃ R, T.get (.idx idx) = .ok R ∧ IsT R k d v ∧ Honest R ∧ R.kind = .plain ∧ ∀ j < k, mat R j = mat T (g j) := by
  have hp : picks n idx = .ok ((List.range k).map g) := by
    rw [picks, hs]
    refine mapM_ok _ _ _ fun j hj => ?_
    obtain ⟨h1, h2⟩ := hg j (List.mem_range.1 hj)
    simp only [pyIndex_of h1 h2]
  rw [T3T.get]
  simp only
  have hx : index0 T.matrix idx = .ok (box (flTag d v) k 4 4 fun i r c => T.matrix.get [g i, r, c]) := by
    rw [index0, hT.1]
    simp only [List.cons_append, List.nil_append]
    rw [hp, ok_bind, hT.2, PK.index, if_pos (by exact hd), ok_bind, pure_ok]
    refine congrArg Except.ok (eq_box (by simp) rfl fun i hi j hj l hl => ?_)
    refine (ofFn_get (by simpa using valid3.2 ⟨hi, hj, hl⟩)).trans ?_
    simp [List.getD, hi]
  rw [hx, ok_bind, ofMatrix_box]
  refine ⟨_, rfl, ⟨rfl, rfl⟩, ⟨rfl, rfl⟩, rfl, fun i hi => ?_⟩
  rw [mat_box hi]
  rfl

end

/-! ## Examples -/

/-- A rounding: numbers that the dtype lacks become 0. -/
noncomputable def exRd (d : DType) (x : ℝ) : ℝ := open Classical in if x ∈ floats d then x else 0

theorem isRounding_exRd : IsRounding exRd :=
  ⟨fun d x => by unfold exRd; split_ifs with h; exacts [h, floats_zero], fun d x h => by rw [exRd, if_pos h]⟩

/-- two translations in double precision: along `x` by 0 and by 1 -/
noncomputable def exMany : T3T :=
  ⟨.translate, ofM (flTag .f64 cpu) [2] 4 4 fun i r c => mkHom 1 ![(i.headD 0 : ℝ), 0, 0] r c, .fl .f64, cpu⟩
/-- a quarter turn about `z` in single precision -/
noncomputable def exTurn : T3T :=
  ⟨.rotate, ofM (flTag .f32 cpu) [1] 4 4 fun _ r c => mkHom !![0, -1, 0; 1, 0, 0; 0, 0, 1] 0 r c, .fl .f32, cpu⟩

theorem exMany_isT : IsT exMany 2 .f64 cpu := ⟨rfl, rfl⟩
theorem exTurn_isT : IsT exTurn 1 .f32 cpu := ⟨rfl, rfl⟩
theorem exMany_honest : Honest exMany := ⟨rfl, rfl⟩

theorem exMany_mat {i : ℕ} (hi : i < 2) : mat exMany i = mkHom 1 ![(i : ℝ), 0, 0] := by
  rw [mat, exMany, matAt_ofM (valid1.2 hi)]; rfl
theorem exTurn_mat : mat exTurn 0 = mkHom !![0, -1, 0; 1, 0, 0; 0, 0, 1] 0 := by
  rw [mat, exTurn, matAt_ofM (valid1.2 (by omega))]; rfl

theorem exMany_regular : RegularT exMany 2 := fun i hi => ⟨_, exMany_mat hi⟩
theorem exTurn_regular : RegularT exTurn 1 := by
  intro i hi
  obtain rfl : i = 0 := by omega
  refine ⟨_, (isRot_iff _).2 ⟨?_, ?_⟩, exTurn_mat⟩
  · ext r c
    fin_cases r <;> fin_cases c <;> simp [Matrix.mul_apply, Fin.sum_univ_three]
  · simp [Matrix.det_fin_three]

/-- Two rows and one row, two dtypes: the second row of the composition is the quarter turn followed by the step along `x`. -/
example : ∃ R, exMany.compose exRd [exTurn] = .ok R ∧ IsT R 2 .f64 cpu ∧ mat R 1 = mkHom !![0, -1, 0; 1, 0, 0; 0, 0, 1] ![1, 0, 0] := by
  obtain ⟨R, h1, h2, -, -, h3⟩ := C124_compose (rd := exRd) exMany_isT exTurn_isT (.inr (.inr rfl))
  refine ⟨R, h1, h2, ?_⟩
  rw [h3 1 (by decide), show bcRow 2 1 = 1 from rfl, show bcRow 1 1 = 0 from rfl, exMany_mat (by omega), exTurn_mat]
  have e0 : exRd .f64 0 = 0 := isRounding_exRd.fix _ _ floats_zero
  have e1 : exRd .f64 1 = 1 := isRounding_exRd.fix _ _ floats_one
  have e2 : exRd .f64 (-1) = -1 := isRounding_exRd.fix _ _ ⟨-1, 0, by norm_num [digits], by norm_num⟩
  ext r c
  rw [Matrix.mul_apply]
  simp only [asDt_apply, conv2_eq, Fin.sum_univ_four]
  fin_cases r <;> fin_cases c <;> simp [mkHom, e0, e1, e2, Matrix.one_apply]

/-- The same the other way round has single precision. -/
example : ∃ R, exTurn.compose exRd [exMany] = .ok R ∧ IsT R 2 .f32 cpu := by
  obtain ⟨R, h1, h2, -⟩ := C124_compose (rd := exRd) exTurn_isT exMany_isT (.inr (.inl rfl))
  exact ⟨R, h1, h2⟩

/-- Two inverses, the second a step back. -/
example : ∃ R, exMany.inverse = .ok R ∧ IsT R 2 .f64 cpu ∧ Honest R ∧ mat R 1 * mkHom 1 ![1, 0, 0] = 1 := by
  obtain ⟨R, h1, h2, h3, -, h4⟩ := C124_inverse exMany_isT exMany_regular
  refine ⟨R, h1, h2, h3, ?_⟩
  have := (h4 1 (by omega)).2
  rwa [exMany_mat (by omega), Nat.cast_one] at this

/-- one point without a batch dimension -/
noncomputable def exCloud : Tn ℝ := ofM (flTag .f64 cpu) [] 1 3 fun _ _ c => ![1, 2, 3] c

/-- A cloud of one point and two transforms: two clouds. -/
example : ∃ R, exMany.transformPoints exRd exCloud none = .ok R ∧ HasMat R [2] 1 3 (flTag .f64 cpu) ∧ pointAt R 1 0 = ![2, 2, 3] := by
  obtain ⟨R, h1, -, h2⟩ := C124_points_flat (eps := none) (P := 1) (dp := .f64) (X := exCloud) isRounding_exRd exMany_isT ⟨rfl, rfl⟩
    (fun i hi => by rw [exMany_mat hi]; exact mkHom_affine _ _) (by simp)
  obtain ⟨h3, h4⟩ := h2 (by omega)
  refine ⟨R, h1, h3, ?_⟩
  rw [h4 1 (by omega) 0 (by omega), asDt, if_pos rfl, exMany_mat (by omega)]
  have e : vecAt 3 exCloud [0] = ![1, 2, 3] := by
    funext c
    exact ofM_get (i := []) .nil (by omega) c.isLt
  rw [e]
  funext c
  fin_cases c <;> simp [act, actDir, mkHom, Fin.sum_univ_three, Matrix.one_apply] <;> norm_num

/-- a pinhole camera: the last row reads the depth `z` -/
noncomputable def exPinhole : T3T :=
  ⟨.plain, ofM (flTag .f64 cpu) [1] 4 4 fun _ r c => if r = 3 then if c = 2 then 1 else 0 else if r = c then 1 else 0, .fl .f64, cpu⟩

/-- Points at depth 2, 0 and -1/4 under `eps=1`: divided by 2, by 1 and by -1. -/
example : ∃ R, exPinhole.transformPoints exRd
      (ofM (flTag .f64 cpu) [1] 3 3 fun _ r c => if c = 2 then ![2, 0, -1 / 4] r else 6) (some 1) = .ok R ∧
    R.get [0, 0, 0] = 3 ∧ R.get [0, 1, 0] = 6 ∧ R.get [0, 2, 0] = -6 := by
  obtain ⟨R, h1, -, h2⟩ := C124_points_eps (rd := exRd) (T := exPinhole) (n := 1) (m := 1) (P := 3) (d := .f64) (dp := .f64) (v := cpu)
    (X := ofM (flTag .f64 cpu) [1] 3 3 fun _ r c => if c = 2 then ![2, 0, -1 / 4] r else 6) one_pos ⟨rfl, rfl⟩ ⟨rfl, rfl⟩ (.inl rfl)
  have hM : mat exPinhole 0 = !![1, 0, 0, 0; 0, 1, 0, 0; 0, 0, 1, 0; 0, 0, 1, 0] := by
    ext r c
    show (ofM (flTag .f64 cpu) [1] 4 4 fun _ r c => if r = 3 then if c = 2 then (1 : ℝ) else 0 else if r = c then 1 else 0).get
      ([0] ++ [(r : ℕ), (c : ℕ)]) = _
    rw [ofM_get (.cons (by decide) .nil) r.isLt c.isLt]
    fin_cases r <;> fin_cases c <;> simp
  have hx : ∀ j : Fin 3, pointAt (ofM (flTag .f64 cpu) [1] 3 3 fun _ r c => if c = 2 then ![2, 0, -1 / 4] r else 6) 0 j =
      ![6, 6, ![2, 0, -1 / 4] j] := fun j => by
    funext c
    refine (ofM_get (i := [0]) (.cons (by decide) .nil) j.isLt c.isLt).trans ?_
    fin_cases c <;> simp
  refine ⟨R, h1, ?_, ?_, ?_⟩
  · obtain ⟨h, -, -⟩ := h2 0 (by decide) 0 (by omega) _ rfl
    rw [show bcRow 1 0 = 0 from rfl, asDt, if_pos rfl, hM, show pointAt _ 0 0 = _ from hx 0] at h
    have := congrFun (h (by simp [Matrix.mulVec, dotProduct, homog, Fin.sum_univ_four])) 0
    simp [Matrix.mulVec, dotProduct, homog, Fin.sum_univ_four, pointAt, vecAt] at this
    linarith
  · obtain ⟨-, h, -⟩ := h2 0 (by decide) 1 (by omega) _ rfl
    rw [show bcRow 1 0 = 0 from rfl, asDt, if_pos rfl, hM, show pointAt _ 0 1 = _ from hx 1] at h
    have := h (by simp [Matrix.mulVec, dotProduct, homog, Fin.sum_univ_four]) (by simp [Matrix.mulVec, dotProduct, homog, Fin.sum_univ_four]) 0
    simp [Matrix.mulVec, dotProduct, homog, Fin.sum_univ_four, pointAt, vecAt] at this
    linarith
  · obtain ⟨-, -, h⟩ := h2 0 (by decide) 2 (by omega) _ rfl
    rw [show bcRow 1 0 = 0 from rfl, asDt, if_pos rfl, hM, show pointAt _ 0 2 = _ from hx 2] at h
    have := h (by simp [Matrix.mulVec, dotProduct, homog, Fin.sum_univ_four]; norm_num)
      (by simp [Matrix.mulVec, dotProduct, homog, Fin.sum_univ_four]; norm_num) 0
    simp [Matrix.mulVec, dotProduct, homog, Fin.sum_univ_four, pointAt, vecAt] at this
    linarith

/-- Normals of a batch, and the exceptions: clouds without the right rank, three clouds for two transforms, two devices. -/
example : (∃ R, exMany.transformNormals exRd (ofM (flTag .f64 cpu) [2] 5 3 fun _ r _ => (r : ℝ)) = .ok R ∧ HasMat R [2] 5 3 (flTag .f64 cpu)) ∧
    exMany.transformPoints exRd (ofV (flTag .f64 cpu) [] 3 fun _ _ => 1) none = .error .valueError ∧
    exMany.transformPoints exRd (ofM (flTag .f64 cpu) [3] 5 3 fun _ _ _ => 1) none = .error .valueError ∧
    exMany.transformPoints exRd (ofM (flTag .f64 1) [2] 5 3 fun _ _ _ => 1) none = .error .runtimeError ∧
    exMany.compose exRd [⟨.plain, ofM (flTag .f64 cpu) [3] 4 4 fun _ _ _ => 1, .fl .f64, cpu⟩] = .error .valueError := by
  refine ⟨?_, C124_points_rank _ (by simp) (by simp), C124_points_sizes exMany_isT (m := 3) (P := 5) (dp := .f64) (v' := cpu) ⟨rfl, rfl⟩ (by simp [Compat]),
    C124_points_devices exMany_isT (m := 2) (P := 5) (dp := .f64) (v' := 1) ⟨rfl, rfl⟩ (by decide) (.inl rfl),
    C124_compose_sizes exMany_isT (m := 3) (d' := .f64) (v' := cpu) ⟨rfl, rfl⟩ (by simp [Compat])⟩
  obtain ⟨R, h1, h2, -⟩ := C124_normals_dual (rd := exRd) (m := 2) (P := 5) exMany_isT exMany_regular
    (X := ofM (flTag .f64 cpu) [2] 5 3 fun _ r _ => (r : ℝ)) ⟨rfl, rfl⟩ (.inl rfl)
  exact ⟨R, h1, h2⟩

/-- Stacking two rows of double and one of single precision, and picking the last row and the rows 1, 0, 1. -/
example : (∃ R, exMany.stack [exTurn] = .ok R ∧ IsT R 3 .f64 cpu) ∧
    (∃ R, exMany.get (.int (-1)) = .ok R ∧ IsT R 1 .f64 cpu ∧ mat R 0 = mkHom 1 ![1, 0, 0]) ∧
    exMany.get (.int 2) = .error .indexError ∧
    (∃ R, exMany.get (.idx (ofFn ⟨.i64, cpu⟩ [3] fun i => if i = [1] then 0 else -1)) = .ok R ∧ IsT R 3 .f64 cpu ∧ mat R 1 = 1 ∧
      mat R 2 = mkHom 1 ![1, 0, 0]) := by
  refine ⟨?_, ?_, (C124_getitem_int exMany_isT).2 (by omega), ?_⟩
  · obtain ⟨R, dr, h1, h2, h3, -⟩ := C124_stack (v := cpu) (T := exMany) (us := [exTurn]) (by
      intro u hu
      simp only [List.mem_cons, List.not_mem_nil, or_false] at hu
      rcases hu with rfl | rfl
      exacts [⟨2, .f64, exMany_isT⟩, ⟨1, .f32, exTurn_isT⟩])
    obtain rfl := h2.2 ⟨exMany, by simp, rfl⟩
    exact ⟨R, h1, h3⟩
  · obtain ⟨R, h1, h2, -, -, h3⟩ := (C124_getitem_int exMany_isT (z := -1)).1 1 (by omega) (.inr (by norm_num))
    exact ⟨R, h1, h2, by rw [h3, exMany_mat (by omega), Nat.cast_one]⟩
  · obtain ⟨R, h1, h2, -, -, h3⟩ := C124_getitem_idx exMany_isT (k := 3) (g := fun j => if j = 1 then 0 else 1)
      (idx := ofFn ⟨.i64, cpu⟩ [3] fun i => if i = [1] then 0 else -1) rfl (.inl rfl) (fun j hj => by
        refine ⟨by split_ifs <;> omega, ?_⟩
        rw [ofFn_get (valid1.2 hj)]
        by_cases h : j = 1
        · exact .inl (by simp [h])
        · exact .inr (by simp [h]))
    refine ⟨R, h1, h2, ?_, ?_⟩
    · rw [h3 1 (by omega), if_pos rfl, exMany_mat (by omega), Nat.cast_zero]
      ext r c
      fin_cases r <;> fin_cases c <;> simp [mkHom]
    · rw [h3 2 (by omega), if_neg (by omega), exMany_mat (by omega), Nat.cast_one]

end PK
