import Verif.Lemmas.T3
import Verif.Props.Quaternion
import Verif.Props.Euler

/-!
# C30–C34, C67–C71: `Transform3d`
-/

namespace PK
open Matrix Spec Real

/-! ## C30 composition -/

/-- C30: on affine transforms `transform_points` maps row `p` of batch element `i` to `M_i p`, with batches of one
broadcast; `eps ≤ 1` has no effect. A `(P,3)` input with one transform keeps its shape. -/
theorem C30_transform_points {P : ℕ} (t : T3) (ht : ∀ M ∈ t.mats, IsAffine M) (eps : Option ℝ)
    (he : ∀ e, eps = some e → e ≤ 1) (xs : List (Matrix (Fin P) (Fin 3) ℝ)) (h : Compat xs.length t.mats.length) :
    ∃ ys, t.transformPoints eps (.batch xs) = .ok (.batch ys) ∧ ys.length = bsize xs.length t.mats.length ∧
      ∀ i (hi : i < ys.length), ∃ X M, pick xs i = some X ∧ pick t.mats i = some M ∧
        ∀ p, ys[i] p = act M (X p) := by
  obtain ⟨ys, hys⟩ := bzip_compat_ok (applyPoints eps) h
  refine ⟨ys, by simp [T3.transformPoints, hys, ok_bind, pure_ok, reshapeBack], (bzip_ok_get hys).1, ?_⟩
  intro i hi
  obtain ⟨X, M, hX, hM, e⟩ := (bzip_ok_get hys).2 i hi
  refine ⟨X, M, hX, hM, fun p => ?_⟩
  have hm : M ∈ t.mats := by
    unfold pick at hM
    split_ifs at hM <;> exact List.mem_of_getElem? hM
  rw [e, applyPoints_affine he X (ht M hm)]
  rfl

/-- C30 for `(P,3)` input -/
theorem C30_transform_points_flat {P : ℕ} (t : T3) (ht : ∀ M ∈ t.mats, IsAffine M) (eps : Option ℝ)
    (he : ∀ e, eps = some e → e ≤ 1) (X : Matrix (Fin P) (Fin 3) ℝ) :
    t.transformPoints eps (.flat X) = .ok (match t.mats with
      | [M] => .flat (actRows M X)
      | Ms => .batch (Ms.map fun M => actRows M X)) := by
  simp only [T3.transformPoints, bzip_left, ok_bind, pure_ok]
  congr 1
  have : t.mats.map (applyPoints eps X) = t.mats.map fun M => actRows M X :=
    List.map_congr_left fun M hM => applyPoints_affine he X (ht M hM)
  rw [this]
  rcases t.mats with _ | ⟨M, _ | ⟨M', l⟩⟩ <;> rfl

/-- `t2.transform_points(…tk.transform_points(x))` for a list `[t2, …, tk]` -/
noncomputable def nested {P : ℕ} (eps : Option ℝ) (us : List T3) (y : Points P) : Except Err (Points P) :=
  us.foldr (fun u acc => acc >>= fun y' => u.transformPoints eps y') (.ok y)

/-- C30: `t1.compose(t2,…,tk).transform_points(y) = t1.transform_points(t2.transform_points(…))`, for every number of
transforms and all batch sizes; when sizes do not fit, both sides raise the same error. -/
theorem C30_compose_is_function_composition {P : ℕ} (t : T3) (us : List T3) (ht : ∀ M ∈ t.mats, IsAffine M)
    (hus : ∀ u ∈ us, ∀ M ∈ u.mats, IsAffine M) (eps : Option ℝ) (he : ∀ e, eps = some e → e ≤ 1) (y : Points P) :
    (t.compose us >>= fun s => s.transformPoints eps y) = (nested eps us y >>= fun y' => t.transformPoints eps y') := by
  have hn : ∀ (us : List T3) (e : Err), nested eps us y = .error e → e = .valueError := by
    intro us
    induction us with
    | nil => intro e h; cases h
    | cons u us ih =>
      intro e h
      simp only [nested, List.foldr_cons] at h ih
      rcases e' : (List.foldr (fun u acc => acc >>= fun y' => u.transformPoints eps y') (Except.ok y) us) with e'' | y'
      · rw [e'] at h; cases h; exact ih _ e'
      · rw [e'] at h; exact T3.transformPoints_error h
  induction us generalizing t with
  | nil =>
    rw [T3.compose_nil]
    simp only [nested, List.foldr_nil, ok_bind]
    cases y <;> rfl
  | cons u us ih =>
    have hu : u.Affine := hus u (by simp)
    have hus' : ∀ v ∈ us, ∀ M ∈ v.mats, IsAffine M := fun v hv => hus v (by simp [hv])
    rw [T3.compose_cons, bind_assoc]
    have h1 : nested eps (u :: us) y = (nested eps us y >>= fun y' => u.transformPoints eps y') := rfl
    rw [h1, bind_assoc]
    have h2 : (nested eps us y >>= fun x => u.transformPoints eps x >>= fun y' => t.transformPoints eps y') =
        (nested eps us y >>= fun x => t.compose [u] >>= fun s => s.transformPoints eps x) := by
      congr 1; funext x
      exact (T3.compose_transformPoints ht hu he x).symm
    rw [h2]
    rcases e : t.compose [u] with e' | s
    · simp only [error_bind]
      have := T3.compose_error e
      subst this
      rcases e2 : nested eps us y with e3 | y'
      · rw [hn us _ e2]; rfl
      · rfl
    · simp only [ok_bind]
      exact ih s (T3.compose_affine ht hu e) hus'

/-- C30: `compose` is associative (sizes and errors included), and takes its argument list left to right. -/
theorem C30_compose_assoc (a b c : T3) :
    (a.compose [b] >>= fun ab => ab.compose [c]) = (b.compose [c] >>= fun bc => a.compose [bc]) ∧
    a.compose [b, c] = (a.compose [b] >>= fun ab => ab.compose [c]) := by
  refine ⟨?_, T3.compose_cons a b [c]⟩
  have h := bzip_assoc (fun x y : M4 => x * y) (fun x y : M4 => x * y) (fun x y : M4 => x * y)
    (fun x y : M4 => x * y) a.mats b.mats c.mats (fun x _ y _ z _ => mul_assoc x y z)
  simp only [T3.compose_one, bind_assoc, ok_bind]
  rw [← bind_assoc, ← bind_assoc, ← h]

/-- C30: `Transform3d()` is the unit of composition. -/
theorem C30_compose_identity (t I : T3) (hI : T3.init (.default 1) none none t.mdtype t.mdevice = .ok I) :
    (t.compose [I] >>= fun s => .ok s.mats) = .ok t.mats ∧ (I.compose [t] >>= fun s => .ok s.mats) = .ok t.mats := by
  cases hI
  simp only [T3.compose_one, List.replicate, bzip_left, bzip_right, ok_bind]
  simp

/-- a non-rigid affine matrix -/
noncomputable def exAff : M4 := mkHom !![2, 0, 1; 0, 1/2, 0; 0, 3, 1] ![1, -2, 3]
/-- a transform holding it -/
noncomputable def exT : T3 := ⟨.plain, [exAff, mkHom 1 ![1, 0, 0]], .f32, 0, .f32, 0⟩
example : ∀ M ∈ exT.mats, IsAffine M := by
  intro M hM
  simp only [exT, List.mem_cons, List.not_mem_nil, or_false] at hM
  rcases hM with rfl | rfl <;> exact mkHom_affine _ _
example : Compat 1 exT.mats.length ∧ Compat 2 exT.mats.length ∧ ¬ Compat 3 exT.mats.length := by
  simp [Compat, exT]

/-! ## C31 inverse -/

/-- the matrices a transform of each class is supposed to hold, so that its class-specific inverse applies -/
def Regular (t : T3) : Prop :=
  match t.kind with
  | .plain => ∀ M ∈ t.mats, IsRigid M
  | .translate => ∀ M ∈ t.mats, ∃ p, M = mkHom 1 p
  | .scale => ∀ M ∈ t.mats, ∃ s : V3, (∀ i, s i ≠ 0) ∧ M = mkHom (Matrix.diagonal s) 0
  | .rotate => ∀ M ∈ t.mats, ∃ R, IsRot R ∧ M = mkHom R 0

theorem invertMatrix_mkHom (R : M3) (p : V3) : invertMatrix (mkHom R p) = mkHom Rᵀ (-(Rᵀ *ᵥ p)) := by
  ext i j
  fin_cases i <;> fin_cases j <;>
    simp [invertMatrix, mkHom, Matrix.mulVec, dotProduct, Fin.sum_univ_three]

theorem one_mkHom : (1 : M4) = mkHom 1 0 := by
  ext i j; fin_cases i <;> fin_cases j <;> simp [mkHom]

theorem invertTranslate_mkHom (p : V3) : invertTranslate (mkHom 1 p) = mkHom 1 (-p) := by
  ext i j
  fin_cases i <;> fin_cases j <;> simp [invertTranslate, mkHom]

theorem invertScale_mkHom (s : V3) : invertScale (mkHom (Matrix.diagonal s) 0) = mkHom (Matrix.diagonal fun i => 1 / s i) 0 := by
  ext i j
  fin_cases i <;> fin_cases j <;> simp [invertScale, mkHom]

theorem transpose_mkHom (R : M3) : (mkHom R 0)ᵀ = mkHom Rᵀ 0 := by
  ext i j
  fin_cases i <;> fin_cases j <;> simp [mkHom]

theorem Spec.IsRigid.eq_mkHom {M : M4} (h : IsRigid M) : M = mkHom (rotPart M) (posPart M) := eq_mkHom_of_affine h.2

/-- what `_get_matrix_inverse` does to each matrix -/
noncomputable def invOf (k : TKind) : M4 → M4 :=
  match k with
  | .plain => invertMatrix
  | .translate => invertTranslate
  | .scale => invertScale
  | .rotate => Matrix.transpose

theorem matrixInverse_eq (t : T3) : t.matrixInverse = t.mats.map (invOf t.kind) := by
  unfold T3.matrixInverse invOf
  cases t.kind <;> rfl

theorem invOf_spec {t : T3} (ht : Regular t) {M : M4} (hM : M ∈ t.mats) :
    M * invOf t.kind M = 1 ∧ invOf t.kind M * M = 1 := by
  unfold Regular at ht
  unfold invOf
  rcases hk : t.kind with _ | _ | _ | _ <;> rw [hk] at ht <;> simp only at ht ⊢
  · have hr := ht M hM
    rw [hr.eq_mkHom, invertMatrix_mkHom, mkHom_mul, mkHom_mul, one_mkHom]
    have h1 : IsRot (rotPart M) := hr.1
    rw [h1.mul_transpose, h1.transpose_mul]
    constructor
    · congr 1
      rw [Matrix.mulVec_neg, Matrix.mulVec_mulVec, h1.mul_transpose]; simp
    · congr 1
      simp
  · obtain ⟨p, rfl⟩ := ht M hM
    rw [invertTranslate_mkHom, mkHom_mul, mkHom_mul, one_mkHom]
    simp
  · obtain ⟨s, hs, rfl⟩ := ht M hM
    rw [invertScale_mkHom, mkHom_mul, mkHom_mul, one_mkHom, Matrix.diagonal_mul_diagonal, Matrix.diagonal_mul_diagonal]
    have : (fun i => s i * (1 / s i)) = fun _ => 1 := by funext i; field_simp [hs i]
    have h' : (fun i => 1 / s i * s i) = fun _ => 1 := by funext i; field_simp [hs i]
    rw [this, h']
    simp
  · obtain ⟨R, hR, rfl⟩ := ht M hM
    rw [transpose_mkHom, mkHom_mul, mkHom_mul, one_mkHom, hR.mul_transpose, hR.transpose_mul]
    simp

/-- C31 (partial): `t.compose(t.inverse())` and `t.inverse().compose(t)` are batches of identities when a plain
transform is rigid, a `Scale` has non-zero factors and a `Rotate` holds rotations. Missing: plain transforms that are
not rigid, for which the claim is false (`C31_fails_scaled`, `C31_fails_clone`). -/
theorem C31_inverse_partial (t : T3) (ht : Regular t) :
    (t.compose [t.inverse] >>= fun s => .ok s.mats) = .ok (List.replicate t.mats.length 1) ∧
    (t.inverse.compose [t] >>= fun s => .ok s.mats) = .ok (List.replicate t.mats.length 1) := by
  simp only [T3.compose_one, T3.inverse, matrixInverse_eq]
  constructor
  · rw [bzip_eq _ (by simp)]
    simp only [ok_bind]
    congr 1
    apply List.ext_getElem (by simp)
    intro i h1 h2
    simp only [List.getElem_zipWith, List.getElem_map, List.getElem_replicate]
    exact (invOf_spec ht (List.getElem_mem _)).1
  · rw [bzip_eq _ (by simp)]
    simp only [ok_bind]
    congr 1
    apply List.ext_getElem (by simp)
    intro i h1 h2
    simp only [List.getElem_zipWith, List.getElem_map, List.getElem_replicate]
    exact (invOf_spec ht (List.getElem_mem _)).2

theorem hom_diag (s : V3) : (Matrix.diagonal ![s 0, s 1, s 2, 1] : M4) = mkHom (Matrix.diagonal s) 0 := by
  ext i j
  fin_cases i <;> fin_cases j <;> simp [mkHom]

/-- C31 for every object built by `Translate`. -/
theorem C31_translate (x : CoordX) (y z : Coord) (d : DType) (dev : Device) (t : T3)
    (h : T3.mkTranslate x y z d dev = .ok t) : Regular t := by
  unfold T3.mkTranslate at h
  rcases e : handleInput x y z false with e' | xyz
  · rw [e] at h; cases h
  · rw [e] at h
    cases h
    intro M hM
    obtain ⟨p, _, rfl⟩ := List.mem_map.1 hM
    exact ⟨p, hom_eq_mkHom 1 p⟩

/-- C31 for every object built by `Scale` with non-zero factors. -/
theorem C31_scale (x : CoordX) (y z : Coord) (d : DType) (dev : Device) (t : T3)
    (h : T3.mkScale x y z d dev = .ok t) (h0 : ∀ M ∈ t.mats, ∀ i, M i i ≠ 0) : Regular t := by
  unfold T3.mkScale at h
  rcases e : handleInput x y z true with e' | xyz
  · rw [e] at h; cases h
  · rw [e] at h
    cases h
    intro M hM
    have h1 := h0 M hM
    obtain ⟨p, _, rfl⟩ := List.mem_map.1 hM
    refine ⟨p, ?_, hom_diag p⟩
    intro i
    have := h1 i.castSucc
    fin_cases i <;> simpa using this

/-- C31 for every object built by `Rotate` from rotation matrices, non-zero quaternions or angles (but not a batch of
exactly three angle triples, which is taken for a matrix). -/
theorem C31_rotate (r : RotArg) (d : DType) (dev : Device) (hr : ∀ R ∈ r.toMats.1, IsRot R) :
    Regular (T3.mkRotate r d dev) := by
  intro M hM
  obtain ⟨R, hR, rfl⟩ := List.mem_map.1 hM
  exact ⟨R, hr R hR, hom_eq_mkHom R 0⟩

/-- `Scale(2)` -/
theorem mkScale_two (d : DType) (dev : Device) : T3.mkScale (.coord (.scalar 2)) .none .none d dev =
    .ok ⟨.scale, [mkHom (Matrix.diagonal ![2, 2, 2]) 0], d, dev, .f32, dev⟩ := by
  rw [← hom_diag]
  simp [T3.mkScale, handleInput, handleCoord, expandVec, ok_bind, pure_ok]

/-- `Transform3d()` -/
theorem init_default (d : DType) (dev : Device) : T3.init (.default 1) none none d dev =
    .ok ⟨.plain, [1], d, dev, d, dev⟩ := rfl

/-- `Transform3d().scale(2)` -/
theorem scale_two (d : DType) (dev : Device) :
    (⟨.plain, [1], d, dev, d, dev⟩ : T3).scale (.coord (.scalar 2)) .none .none =
    .ok ⟨.plain, [mkHom (Matrix.diagonal ![2, 2, 2]) 0], d, dev, d, dev⟩ := by
  simp [T3.scale, mkScale_two, ok_bind, T3.compose_one, bzip_left]

theorem plain_two_wrong (d : DType) (dev : Device) (d' : DType) (dev' : Device) :
    ∃ s, (⟨.plain, [mkHom (Matrix.diagonal ![2, 2, 2]) 0], d, dev, d', dev'⟩ : T3).inverse.compose
      [⟨.plain, [mkHom (Matrix.diagonal ![2, 2, 2]) 0], d, dev, d', dev'⟩] = .ok s ∧
    s.transformPoints none (.flat !![1, 1, 1]) = .ok (.flat !![4, 4, 4]) := by
  refine ⟨_, by simp only [T3.inverse, T3.matrixInverse, List.map_cons, List.map_nil, T3.compose_one, bzip_left, ok_bind]; rfl, ?_⟩
  rw [C30_transform_points_flat _ _ _ (by simp)]
  · simp only [invertMatrix_mkHom, mkHom_mul]
    congr 2
    ext i j
    fin_cases i
    fin_cases j <;> simp [actRows, act, mkHom, Matrix.mulVec, dotProduct, Fin.sum_univ_three] <;> norm_num
  · simp only [List.mem_singleton, invertMatrix_mkHom, forall_eq]
    exact affine_mul (mkHom_affine _ _) (mkHom_affine _ _)

/-- C31 is false: with `t = Transform3d().scale(2)`, `t.inverse().compose(t)` takes `(1,1,1)` to `(4,4,4)`. -/
theorem C31_fails_scaled : ∃ I t s : T3, T3.init (.default 1) none none .f32 cpu = .ok I ∧
    I.scale (.coord (.scalar 2)) .none .none = .ok t ∧ t.inverse.compose [t] = .ok s ∧
    s.transformPoints none (.flat !![1, 1, 1]) = .ok (.flat !![4, 4, 4]) := by
  obtain ⟨s, h1, h2⟩ := plain_two_wrong .f32 cpu .f32 cpu
  exact ⟨_, _, s, init_default _ _, scale_two _ _, h1, h2⟩

/-- C31 is false after `clone` (or `to` a device): `Scale(2)` inverts correctly, its clone does not. -/
theorem C31_fails_clone : ∃ t s s' : T3, T3.mkScale (.coord (.scalar 2)) .none .none .f32 cpu = .ok t ∧
    Regular t ∧ t.clone.mats = t.mats ∧
    t.clone.inverse.compose [t.clone] = .ok s ∧
    s.transformPoints none (.flat !![1, 1, 1]) = .ok (.flat !![4, 4, 4]) ∧
    (t.to 1 false none).inverse.compose [t.to 1 false none] = .ok s' ∧
    s'.transformPoints none (.flat !![1, 1, 1]) = .ok (.flat !![4, 4, 4]) := by
  obtain ⟨s, h1, h2⟩ := plain_two_wrong .f32 cpu .f32 cpu
  obtain ⟨s', h3, h4⟩ := plain_two_wrong .f32 1 .f32 1
  refine ⟨_, s, s', mkScale_two _ _, ?_, rfl, h1, h2, ?_, h4⟩
  · intro M hM
    simp only [List.mem_singleton] at hM
    exact ⟨![2, 2, 2], by intro i; fin_cases i <;> simp, hM⟩
  · simp only [T3.to, show (cpu : Device) = 0 from rfl]
    simpa using h3

example : Regular ⟨.plain, [mkHom (rotAbout ![0, 0, 1] 1) ![1, 2, 3]], .f32, 0, .f32, 0⟩ := by
  intro M hM
  simp only [List.mem_singleton] at hM
  subst hM
  refine ⟨?_, mkHom_row _ _⟩
  simp only [mkHom_castSucc]
  exact isRot_rotAbout (by simp [IsUnitV]) 1

/-! ## C32 broadcasting and stacking -/

/-- C32: two transforms compose exactly when the sizes are equal or one of them is 1; the result then has the larger
size and its elements are the products of the (broadcast) elements; otherwise `ValueError`. -/
theorem C32_compose_sizes (t u : T3) :
    (Compat t.mats.length u.mats.length → ∃ s, t.compose [u] = .ok s ∧
      s.mats.length = bsize t.mats.length u.mats.length ∧
      ∀ i (hi : i < s.mats.length), ∃ A B, pick t.mats i = some A ∧ pick u.mats i = some B ∧ s.mats[i] = A * B) ∧
    (¬ Compat t.mats.length u.mats.length → t.compose [u] = .error .valueError) := by
  rw [T3.compose_one]
  constructor
  · intro h
    obtain ⟨c, hc⟩ := bzip_compat_ok (fun x y : M4 => x * y) h
    rw [hc]
    exact ⟨_, rfl, (bzip_ok_get hc).1, (bzip_ok_get hc).2⟩
  · intro h
    rw [bzip_error _ h]; rfl

/-- C32: `transform_points` rejects other sizes, and tensors that are not `(P,3)` or `(N,P,3)`. -/
theorem C32_points_sizes {P : ℕ} (t : T3) (eps : Option ℝ) (xs : List (Matrix (Fin P) (Fin 3) ℝ)) :
    (t.transformPoints eps (.batch xs) = .error .valueError ↔ ¬ Compat xs.length t.mats.length) ∧
    t.transformPoints eps (.other : Points P) = .error .valueError := by
  refine ⟨⟨fun h => ?_, fun h => ?_⟩, rfl⟩
  · simp only [T3.transformPoints] at h
    rcases e : bzip (applyPoints eps) xs t.mats with e' | m
    · exact (bzip_error_value e).2
    · rw [e] at h; cases h
  · simp only [T3.transformPoints, bzip_error _ h]; rfl

/-- C32: `stack` concatenates the batches of any number of transforms. -/
theorem C32_stack_concatenates (t : T3) (us : List T3) :
    (t.stack us).mats = t.mats ++ us.flatMap T3.mats := by
  simp [T3.stack, List.flatMap]

/-- C32: stacking commutes with `transform_points` (the example of the class documentation), element by element. -/
theorem C32_stack_transform_points {P : ℕ} (t u : T3) (eps : Option ℝ)
    (xs ys xs' ys' : List (Matrix (Fin P) (Fin 3) ℝ)) (hx : xs.length = t.mats.length) (hy : ys.length = u.mats.length)
    (h1 : t.transformPoints eps (.batch xs) = .ok (.batch xs')) (h2 : u.transformPoints eps (.batch ys) = .ok (.batch ys')) :
    (t.stack [u]).transformPoints eps (.batch (xs ++ ys)) = .ok (.batch (xs' ++ ys')) := by
  simp only [T3.transformPoints, bzip_eq _ hx, bzip_eq _ hy, ok_bind, pure_ok, reshapeBack, Except.ok.injEq,
    Points.batch.injEq] at h1 h2
  subst h1 h2
  simp only [T3.transformPoints, T3.stack, List.map_cons, List.map_nil, List.flatten_cons, List.flatten_nil,
    List.append_nil]
  rw [bzip_eq _ (by simp [hx, hy])]
  simp only [ok_bind, pure_ok, reshapeBack]
  rw [List.zipWith_append hx]

/-- C32: indexing a stack picks from the part the index falls into; an index past the end raises. -/
theorem C32_stack_index (t u : T3) (i : ℕ) :
    (i < t.mats.length → ((t.stack [u]).get i >>= fun s => .ok s.mats) = (t.get i >>= fun s => .ok s.mats)) ∧
    (t.mats.length ≤ i → ((t.stack [u]).get i >>= fun s => .ok s.mats) =
      (u.get (i - t.mats.length) >>= fun s => .ok s.mats)) ∧
    (t.mats.length + u.mats.length ≤ i → (t.stack [u]).get i = .error .indexError) := by
  simp only [T3.get, T3.stack, List.map_cons, List.map_nil, List.flatten_cons, List.flatten_nil, List.append_nil]
  refine ⟨fun h => ?_, fun h => ?_, fun h => ?_⟩
  · rw [List.getElem?_append_left h]
  · rw [List.getElem?_append_right h]
    rcases u.mats[i - t.mats.length]? with _ | m <;> rfl
  · rw [List.getElem?_eq_none (by simp; omega)]

/-! ## C33 normals -/

theorem rotPart_mul_affine (A : M4) {B : M4} (hB : IsAffine B) : rotPart (A * B) = rotPart A * rotPart B := by
  obtain ⟨b0, b1, b2, b3⟩ := affine_row hB
  apply m3_ext9 <;>
    simp [rotPart, Matrix.mul_apply, Fin.sum_univ_four, Fin.sum_univ_three, b0, b1, b2]

theorem Regular.affine {t : T3} (ht : Regular t) : t.Affine := by
  intro M hM
  unfold Regular at ht
  rcases hk : t.kind with _ | _ | _ | _ <;> rw [hk] at ht <;> simp only at ht
  · exact (ht M hM).2
  · obtain ⟨p, rfl⟩ := ht M hM; exact mkHom_affine _ _
  · obtain ⟨s, _, rfl⟩ := ht M hM; exact mkHom_affine _ _
  · obtain ⟨R, _, rfl⟩ := ht M hM; exact mkHom_affine _ _

theorem rotPart_inv_mul {t : T3} (ht : Regular t) {M : M4} (hM : M ∈ t.mats) :
    rotPart (invOf t.kind M) * rotPart M = 1 := by
  rw [← rotPart_mul_affine _ (ht.affine M hM), (invOf_spec ht hM).2]
  ext i j; fin_cases i <;> fin_cases j <;> simp [rotPart]

/-- C33: `transform_normals` keeps the dot product of every normal with every transformed tangent, for rigid plain
transforms, `Translate`, `Rotate` and (non-uniform, non-zero) `Scale`. -/
theorem C33_normals_keep_tangents {P : ℕ} (t : T3) (ht : Regular t)
    (ns : List (Matrix (Fin P) (Fin 3) ℝ)) (h : Compat ns.length t.mats.length) :
    ∃ ms, t.transformNormals (.batch ns) = .ok (.batch ms) ∧ ms.length = bsize ns.length t.mats.length ∧
      ∀ i (hi : i < ms.length), ∃ N M, pick ns i = some N ∧ pick t.mats i = some M ∧
        ∀ (p : Fin P) (v : V3), ms[i] p ⬝ᵥ actDir M v = N p ⬝ᵥ v := by
  have hl : Compat ns.length t.inverse.mats.length := by simpa [T3.inverse, matrixInverse_eq] using h
  obtain ⟨ms, hms⟩ := bzip_compat_ok applyNormals hl
  refine ⟨ms, by simp [T3.transformNormals, hms, ok_bind, pure_ok, reshapeBack], ?_, ?_⟩
  · rw [(bzip_ok_get hms).1]; simp [T3.inverse, matrixInverse_eq]
  intro i hi
  obtain ⟨N, K, hN, hK, e⟩ := (bzip_ok_get hms).2 i hi
  have hK' : ∃ M, pick t.mats i = some M ∧ K = invOf t.kind M := by
    simp only [pick, T3.inverse, matrixInverse_eq, List.length_map, List.getElem?_map] at hK ⊢
    split_ifs at hK ⊢ with h1
    · simpa [eq_comm] using hK
    · simpa [eq_comm] using hK
  obtain ⟨M, hM, rfl⟩ := hK'
  refine ⟨N, M, hN, hM, fun p v => ?_⟩
  have hm : M ∈ t.mats := by
    unfold pick at hM
    split_ifs at hM <;> exact List.mem_of_getElem? hM
  have h1 : actDir M v = rotPart M *ᵥ v := by
    apply v3_ext <;> simp [actDir, rotPart, Matrix.mulVec, dotProduct, Fin.sum_univ_three]
  have h2 : ms[i] p = N p ᵥ* rotPart (invOf t.kind M) := by
    rw [e]; rfl
  rw [h1, h2, ← Matrix.dotProduct_mulVec, Matrix.mulVec_mulVec, rotPart_inv_mul ht hm, Matrix.one_mulVec]

/-- C33: for a rigid transform of any class, `transform_normals` rotates every normal: the unique result compatible
with the dot products above. -/
theorem C33_normals_rotate {P : ℕ} (t : T3) (ht : Regular t) (hr : ∀ M ∈ t.mats, IsRigid M)
    (ns : List (Matrix (Fin P) (Fin 3) ℝ)) (h : Compat ns.length t.mats.length) :
    ∃ ms, t.transformNormals (.batch ns) = .ok (.batch ms) ∧ ms.length = bsize ns.length t.mats.length ∧
      ∀ i (hi : i < ms.length), ∃ N M, pick ns i = some N ∧ pick t.mats i = some M ∧
        ∀ p, ms[i] p = actDir M (N p) := by
  obtain ⟨ms, h1, h2, h3⟩ := C33_normals_keep_tangents t ht ns h
  refine ⟨ms, h1, h2, fun i hi => ?_⟩
  obtain ⟨N, M, hN, hM, hd⟩ := h3 i hi
  refine ⟨N, M, hN, hM, fun p => ?_⟩
  have hm : M ∈ t.mats := by
    unfold pick at hM
    split_ifs at hM <;> exact List.mem_of_getElem? hM
  have hR : IsRot (rotPart M) := (hr M hm).1
  have ha : ∀ v, actDir M v = rotPart M *ᵥ v := by
    intro v
    apply v3_ext <;> simp [actDir, rotPart, Matrix.mulVec, dotProduct, Fin.sum_univ_three]
  have hall : ∀ w : V3, ms[i] p ⬝ᵥ w = actDir M (N p) ⬝ᵥ w := by
    intro w
    have := hd p ((rotPart M)ᵀ *ᵥ w)
    rw [ha, Matrix.mulVec_mulVec, hR.mul_transpose, Matrix.one_mulVec] at this
    rw [this, ha, Matrix.dotProduct_mulVec, Matrix.vecMul_transpose]
  funext j
  have := hall (Pi.single j 1)
  simpa using this

/-- C33 does not extend to plain transforms that scale: after `Transform3d().scale(2,1,1)` the normal `(1,1,0)` of the
tangent `(1,-1,0)` is sent to `(2,1,0)`, which is not perpendicular to the transformed tangent `(2,-1,0)`. -/
theorem C33_fails_scaled : ∃ I t : T3, T3.init (.default 1) none none .f32 cpu = .ok I ∧
    I.scale (.coord (.scalar 2)) (.scalar 1) (.scalar 1) = .ok t ∧
    t.transformNormals (.flat !![1, 1, 0]) = .ok (.flat !![2, 1, 0]) ∧
    t.transformPoints none (.flat !![1, -1, 0]) = .ok (.flat !![2, -1, 0]) := by
  have hs : (⟨.plain, [1], .f32, cpu, .f32, cpu⟩ : T3).scale (.coord (.scalar 2)) (.scalar 1) (.scalar 1) =
      .ok ⟨.plain, [mkHom (Matrix.diagonal ![2, 1, 1]) 0], .f32, cpu, .f32, cpu⟩ := by
    rw [← hom_diag]
    simp [T3.scale, T3.mkScale, handleInput, handleCoord, expandVec, pure_ok, ok_bind, T3.compose_one, bzip_left]
  refine ⟨_, _, init_default _ _, hs, ?_, ?_⟩
  · simp only [T3.transformNormals, T3.inverse, T3.matrixInverse, List.map_cons, List.map_nil, bzip_left, ok_bind,
      pure_ok, reshapeBack, applyNormals, invertMatrix_mkHom, rotPart_mkHom]
    congr 2
    ext i j
    fin_cases i
    fin_cases j <;> simp [Matrix.mul_apply, Fin.sum_univ_three]
  · rw [C30_transform_points_flat _ _ _ (by simp)]
    · change Except.ok (Points.flat (actRows _ _)) = _
      congr 2
      ext i j
      fin_cases i
      fin_cases j <;> simp [actRows, act, mkHom]
    · simp only [List.mem_singleton, forall_eq]
      exact mkHom_affine _ _

/-! ## C34 the constructor -/

/-- one rotation in one of the accepted encodings -/
inductive RotEnc where
  | mat (r : M3)
  | quat (q : Quat)
  | angles (e : V3)

/-- the rotation block an encoding stands for: itself; `v ↦ q v q⁻¹`; intrinsic X, Y, Z rotations -/
def RotEnc.Denotes : RotEnc → M3 → Prop
  | .mat r, R => R = r
  | .quat q, R => q ≠ ⟨0, 0, 0, 0⟩ → ∀ v, pureH (R *ᵥ v) = toH q * pureH v * (toH q)⁻¹
  | .angles e, R => R = seqRot true .x .y .z e

/-- the encodings in a `rot` argument -/
def RotArg.encs : RotArg → List RotEnc
  | .mat r => [.mat r]
  | .mats rs => rs.map .mat
  | .quat q => [.quat q]
  | .quats qs => qs.map .quat
  | .angles e => [.angles e]
  | .anglesBatch es => es.map .angles

/-- the positions in a `pos` argument -/
def PosArg.list : PosArg → List V3
  | .single p => [p]
  | .batch ps => ps

/-- the matrices of the `matrix` argument, identities by default -/
def MatArg.list : MatArg → List M4
  | .default n => List.replicate n 1
  | .single m => [m]
  | .batch ms => ms
  | .badShape => []

theorem eulerXYZ_eq (e : V3) : eulerXYZ e = seqRot true .x .y .z e := by
  have := eulerAnglesToMatrix_ok .x .y .z (by decide) (by decide) e
  simp only [convName, XYZ.upper] at this
  simp only [eulerXYZ, this]

theorem toMats_denotes (r : RotArg) (hr : ∀ es, r = .anglesBatch es → es.length ≠ 3) :
    r.toMats.1.length = r.encs.length ∧
    ∀ i (hi : i < r.toMats.1.length) (hi' : i < r.encs.length), r.encs[i].Denotes r.toMats.1[i] := by
  cases r with
  | mat r =>
    refine ⟨rfl, fun i hi hi' => ?_⟩
    simp only [RotArg.toMats, List.length_singleton, Nat.lt_one_iff] at hi
    subst hi; rfl
  | quat q =>
    refine ⟨rfl, fun i hi hi' => ?_⟩
    simp only [RotArg.toMats, List.length_singleton, Nat.lt_one_iff] at hi
    subst hi
    exact fun hq v => C35_quaternion_to_matrix_is_conjugation q hq v
  | angles e =>
    refine ⟨rfl, fun i hi hi' => ?_⟩
    simp only [RotArg.toMats, List.length_singleton, Nat.lt_one_iff] at hi
    subst hi
    exact eulerXYZ_eq e
  | mats rs =>
    refine ⟨by simp [RotArg.toMats, RotArg.encs], fun i hi hi' => ?_⟩
    simp [RotArg.toMats, RotArg.encs, RotEnc.Denotes]
  | quats qs =>
    refine ⟨by simp [RotArg.toMats, RotArg.encs], fun i hi hi' => ?_⟩
    simp only [RotArg.toMats, RotArg.encs, RotEnc.Denotes, List.getElem_map]
    exact fun hq v => C35_quaternion_to_matrix_is_conjugation _ hq v
  | anglesBatch es =>
    have h3 := hr es rfl
    have ht : (RotArg.anglesBatch es).toMats = (es.map eulerXYZ, true) := by
      match es with
      | [] => rfl
      | [_] => rfl
      | [_, _] => rfl
      | [_, _, _] => simp at h3
      | _ :: _ :: _ :: _ :: _ => rfl
    refine ⟨by simp [ht, RotArg.encs], fun i hi hi' => ?_⟩
    simp only [ht, RotArg.encs, RotEnc.Denotes, List.getElem_map, eulerXYZ_eq]

theorem pick_of_lt {α : Type} {l : List α} {i : ℕ} (hi : i < l.length) : pick l i = some l[i] := by
  unfold pick
  split_ifs with h
  · have : i = 0 := by omega
    subst this; simp [h]
  · simp [hi]

theorem pick_map {α β : Type} (f : α → β) (l : List α) (i : ℕ) : pick (l.map f) i = (pick l i).map f := by
  unfold pick
  split_ifs with h h' h'
  · simp
  · simp at h; exact absurd h h'
  · simp at h; exact absurd h' h
  · simp

theorem repeatTo_pick {b : Bool} {n : ℕ} {ms : List M4} {i : ℕ} {M : M4} (h : pick (repeatTo b n ms) i = some M) :
    pick ms i = some M := by
  match b, ms with
  | false, ms => exact h
  | true, [] => exact h
  | true, [m] =>
    by_cases hn : 1 < n
    · simp only [repeatTo, if_pos hn, pick, List.length_replicate, if_neg (show ¬ n = 1 by omega),
        List.getElem?_replicate] at h
      split_ifs at h
      simpa [pick] using h
    · simpa [repeatTo, if_neg hn] using h
  | true, _ :: _ :: _ => exact h

theorem catLast_pick {α β γ : Type} {f : α → β → γ} {a : List α} {b : List β} {c : List γ}
    (h : catLast f a b = .ok c) {i : ℕ} {z : γ} (hz : pick c i = some z) :
    ∃ x y, pick a i = some x ∧ pick b i = some y ∧ z = f x y := by
  unfold catLast at h
  split_ifs at h with hl
  cases h
  unfold pick at hz ⊢
  simp only [List.length_zipWith, hl, min_self] at hz ⊢
  split_ifs at hz ⊢ <;>
  · rw [List.getElem?_zipWith] at hz
    split at hz
    · rename_i x y hx hy
      exact ⟨x, y, hx, hy, by simpa [eq_comm] using hz⟩
    · cases hz

/-- C34 (partial): whenever the constructor succeeds, element `i` has last column `(pos_i, 1)` if `pos` is given,
the rotation block denoted by `rot_i` over a zero row if `rot` is given, and otherwise the columns of `matrix_i`;
batches of one are broadcast. Missing: a batch of exactly three angle triples, for which the claim is false
(`C34_three_euler_triples_fails`). -/
theorem C34_assembles_partial (matrix : MatArg) (pos : Option PosArg) (rot : Option RotArg) (d : DType) (dev : Device)
    (t : T3) (hr : ∀ es, rot = some (.anglesBatch es) → es.length ≠ 3)
    (h : T3.init matrix pos rot d dev = .ok t) (i : ℕ) (hi : i < t.mats.length) :
    ∃ M, pick matrix.list i = some M ∧
      (pos = none → ∀ k, t.mats[i] k 3 = M k 3) ∧
      (∀ pa, pos = some pa → ∃ p, pick pa.list i = some p ∧ ∀ k, t.mats[i] k 3 = ![p 0, p 1, p 2, 1] k) ∧
      (rot = none → ∀ k (l : Fin 3), t.mats[i] k l.castSucc = M k l.castSucc) ∧
      (∀ r, rot = some r → ∃ enc R, pick r.encs i = some enc ∧ enc.Denotes R ∧
        (∀ k l : Fin 3, t.mats[i] k.castSucc l.castSucc = R k l) ∧ ∀ l : Fin 3, t.mats[i] 3 l.castSucc = 0) := by
  unfold T3.init at h
  rcases e0 : initMatrix matrix with e | ms
  · rw [e0] at h; cases h
  rw [e0] at h
  simp only [ok_bind] at h
  rcases e1 : setPos ms pos with e | ms1
  · rw [e1] at h; cases h
  rw [e1] at h
  simp only [ok_bind] at h
  rcases e2 : setRot ms1 rot with e | ms2
  · rw [e2] at h; cases h
  rw [e2] at h
  cases h
  have hms : ms = matrix.list := by
    cases matrix <;> simp [initMatrix] at e0 <;> simp [MatArg.list, e0]
  subst hms
  dsimp only at hi ⊢
  have hp := pick_of_lt hi
  generalize ms2[i] = Z at hp ⊢
  -- the rotation step
  have hrot : ∃ Y, pick ms1 i = some Y ∧ (∀ k, Z k 3 = Y k 3) ∧
      (rot = none → Z = Y) ∧
      (∀ r, rot = some r → ∃ enc R, pick r.encs i = some enc ∧ enc.Denotes R ∧
        (∀ k l : Fin 3, Z k.castSucc l.castSucc = R k l) ∧ ∀ l : Fin 3, Z 3 l.castSucc = 0) := by
    cases rot with
    | none =>
      cases e2
      exact ⟨Z, hp, fun _ => rfl, fun _ => rfl, fun r hr => by cases hr⟩
    | some r =>
      simp only [setRot] at e2
      obtain ⟨R, Y, hR, hY, rfl⟩ := catLast_pick e2 hp
      refine ⟨Y, repeatTo_pick hY, fun k => by simp [withRot], (fun h => by cases h), ?_⟩
      intro r' hr'
      cases hr'
      have hd := toMats_denotes r (fun es he => hr es (by rw [he]))
      have : ∃ enc, pick r.encs i = some enc ∧ enc.Denotes R := by
        unfold pick at hR ⊢
        rw [← hd.1]
        split_ifs at hR ⊢ with h1
        · obtain ⟨h2, h3⟩ := List.getElem?_eq_some_iff.1 hR
          refine ⟨r.encs[0]'(by rw [← hd.1]; exact h2), List.getElem?_eq_getElem _, ?_⟩
          rw [← h3]; exact hd.2 0 h2 _
        · obtain ⟨h2, h3⟩ := List.getElem?_eq_some_iff.1 hR
          refine ⟨r.encs[i]'(by rw [← hd.1]; exact h2), List.getElem?_eq_getElem _, ?_⟩
          rw [← h3]; exact hd.2 i h2 _
      obtain ⟨enc, h1, h2⟩ := this
      refine ⟨enc, R, h1, h2, fun k l => by simp [withRot], fun l => by simp [withRot]⟩
  obtain ⟨Y, hY, hc, hn, hs⟩ := hrot
  have hpos : ∃ M, pick matrix.list i = some M ∧ (∀ k (l : Fin 3), Y k l.castSucc = M k l.castSucc) ∧
      (pos = none → Y = M) ∧
      (∀ pa, pos = some pa → ∃ p, pick pa.list i = some p ∧ ∀ k, Y k 3 = ![p 0, p 1, p 2, 1] k) := by
    cases pos with
    | none =>
      cases e1
      exact ⟨Y, hY, fun _ _ => rfl, fun _ => rfl, fun pa h => by cases h⟩
    | some pa =>
      have : ∃ M p, pick matrix.list i = some M ∧ pick pa.list i = some p ∧ Y = withPos M p := by
        cases pa with
        | single p =>
          simp only [setPos] at e1
          exact catLast_pick e1 hY
        | batch ps =>
          simp only [setPos] at e1
          obtain ⟨M, p, hM, hp, rfl⟩ := catLast_pick e1 hY
          exact ⟨M, p, repeatTo_pick hM, hp, rfl⟩
      obtain ⟨M, p, hM, hp, rfl⟩ := this
      refine ⟨M, hM, fun k l => by simp [withPos], (fun h => by cases h), ?_⟩
      intro pa' h'
      cases h'
      exact ⟨p, hp, fun k => by fin_cases k <;> simp [withPos]⟩
  obtain ⟨M, hM, hb, hn', hs'⟩ := hpos
  refine ⟨M, hM, ?_, ?_, ?_, hs⟩
  · intro h k; rw [hc, hn' h]
  · intro pa h
    obtain ⟨p, h1, h2⟩ := hs' pa h
    exact ⟨p, h1, fun k => by rw [hc, h2]⟩
  · intro h k l
    rw [hn h, hb]

/-- C34: with default matrix, the constructor succeeds for a single `pos` and `rot`, for batches of the same size, and
for single `pos` with a batch of rotations. -/
theorem C34_accepted_sizes (pa : PosArg) (r : RotArg) (d : DType) (dev : Device)
    (hr : ∀ es, r = .anglesBatch es → es.length ≠ 3) (h0 : 0 < pa.list.length) (h0' : 0 < r.encs.length)
    (h : pa.list.length = 1 ∧ r.encs.length = 1 ∨
      pa.list.length = 1 ∧ r.toMats.2 = true ∨ (r.encs.length = pa.list.length)) :
    ∃ t, T3.init (.default 1) (some pa) (some r) d dev = .ok t ∧ t.mats.length = r.encs.length := by
  have hl := (toMats_denotes r hr).1
  have hpos : ∃ ms, setPos [1] (some pa) = .ok ms ∧ ms.length = pa.list.length := by
    cases pa with
    | single p => exact ⟨_, rfl, rfl⟩
    | batch ps =>
      simp only [PosArg.list] at h0 ⊢
      by_cases h1 : 1 < ps.length
      · refine ⟨List.zipWith withPos (List.replicate ps.length 1) ps, ?_, by simp⟩
        simp [setPos, repeatTo, h1, catLast]
      · have : ps.length = 1 := by omega
        refine ⟨List.zipWith withPos [1] ps, ?_, by simp [this]⟩
        simp [setPos, repeatTo, h1, catLast, this]
  obtain ⟨ms, hms, hml⟩ := hpos
  have hrot : ∃ ms', setRot ms (some r) = .ok ms' ∧ ms'.length = r.encs.length := by
    have key : (repeatTo r.toMats.2 r.toMats.1.length ms).length = r.toMats.1.length := by
      rcases h with h | h | h
      · obtain ⟨m, rfl⟩ := List.length_eq_one_iff.1 (hml.trans h.1)
        unfold repeatTo
        rw [hl, h.2]
        cases r.toMats.2 <;> simp
      · obtain ⟨m, rfl⟩ := List.length_eq_one_iff.1 (hml.trans h.1)
        rw [h.2]
        simp only [repeatTo]
        split_ifs
        · simp
        · simp; omega
      · unfold repeatTo
        split
        · simp only [List.length_singleton] at hml
          rw [hl, h, ← hml]; simp
        · rw [hl, h, hml]
    refine ⟨List.zipWith withRot r.toMats.1 (repeatTo r.toMats.2 r.toMats.1.length ms), ?_,
      by rw [List.length_zipWith, key, min_self, hl]⟩
    simp [setRot, catLast, key]
  obtain ⟨ms', h1, h2⟩ := hrot
  refine ⟨⟨.plain, ms', d, dev, d, dev⟩, ?_, h2⟩
  simp only [T3.init, initMatrix, List.replicate, ok_bind, hms, h1, pure_ok]

/-- C34: a batch of two or more positions with a single rotation raises `RuntimeError`, although a single position with
a batch of rotations is broadcast. -/
theorem C34_batched_pos_single_rot_fails (ps : List V3) (hp : 1 < ps.length) (R : M3) (q : Quat) (d : DType) (dev : Device) :
    T3.init (.default 1) (some (.batch ps)) (some (.mat R)) d dev = .error .runtimeError ∧
    T3.init (.default 1) (some (.batch ps)) (some (.quat q)) d dev = .error .runtimeError ∧
    T3.init (.default ps.length) (some (.single 0)) none d dev = .error .runtimeError := by
  have h1 : ¬ (1 = ps.length) := by omega
  have h2 : ¬ (ps.length = 1) := by omega
  refine ⟨?_, ?_, ?_⟩ <;>
    simp [T3.init, initMatrix, setPos, setRot, repeatTo, catLast, hp, ok_bind, error_bind, RotArg.toMats, h1, h2]

/-- C34 is false for three Euler triples: `Transform3d(rot=zeros(3,3))`, three zero rotations, gives one matrix whose
rotation block is zero. -/
theorem C34_three_euler_triples_fails : ∃ t : T3,
    T3.init (.default 1) none (some (.anglesBatch [0, 0, 0])) .f32 cpu = .ok t ∧ t.mats.length = 1 ∧
    (∀ M ∈ t.mats, rotPart M = 0) ∧ (RotEnc.angles 0).Denotes 1 := by
  refine ⟨_, rfl, rfl, ?_, ?_⟩
  · intro M hM
    have : M = withRot (Matrix.of ![0, 0, 0]) 1 := by
      simpa [RotArg.toMats, repeatTo] using hM
    subst this
    apply m3_ext9 <;> simp [rotPart, withRot]
  · simp only [RotEnc.Denotes, ← eulerXYZ_eq]
    rw [eulerXYZ_eq]
    simp only [seqRot, if_true, Pi.zero_apply, ← axisAngleRotation_eq]
    apply m3_ext9 <;> simp [axisAngleRotation, axOf]

example : T3.init (.default 1) (some (.single ![1, 2, 3])) (some (.quats [exQ, exQ])) .f32 cpu ≠ .error .runtimeError := by
  obtain ⟨t, h, _⟩ := C34_accepted_sizes (.single ![1, 2, 3]) (.quats [exQ, exQ]) .f32 cpu (by simp) (by simp [PosArg.list])
    (by simp [RotArg.encs]) (by simp [PosArg.list, RotArg.toMats])
  rw [h]; simp

/-! ## C67 builder methods -/

/-- the result of a builder chain applied to one point -/
noncomputable def onPoint (t : T3) (p : V3) : Except Err (Points 1) := t.transformPoints none (.flat (Matrix.of ![p]))

/-- C67 (partial): each builder method is applied to a point *before* everything already in the transform:
`t.translate(…).transform_points(x) = t.transform_points(Translate(…).transform_points(x))`, likewise `scale`, `rotate`
and `rotate_axis_angle`. The documented order (left to right) is the opposite and fails
(`C67_documented_order_fails`). -/
theorem C67_builders_apply_last_first_partial {P : ℕ} (t b : T3) (ht : ∀ M ∈ t.mats, IsAffine M) (pts : Points P) :
    (∀ x y z, T3.mkTranslate x y z .f32 t.device = .ok b →
      (t.translate x y z >>= fun s => s.transformPoints none pts) =
        (b.transformPoints none pts >>= fun q => t.transformPoints none q)) ∧
    (∀ x y z, T3.mkScale x y z .f32 t.device = .ok b →
      (t.scale x y z >>= fun s => s.transformPoints none pts) =
        (b.transformPoints none pts >>= fun q => t.transformPoints none q)) ∧
    (∀ r, T3.mkRotate r .f32 t.device = b →
      (t.rotate r >>= fun s => s.transformPoints none pts) =
        (b.transformPoints none pts >>= fun q => t.transformPoints none q)) ∧
    (∀ a ax deg, T3.mkRotateAxisAngle a ax deg t.device = .ok b →
      (t.rotateAxisAngle a ax deg >>= fun s => s.transformPoints none pts) =
        (b.transformPoints none pts >>= fun q => t.transformPoints none q)) := by
  have key : b.Affine → (t.compose [b] >>= fun s => s.transformPoints none pts) =
        (b.transformPoints none pts >>= fun q => t.transformPoints none q) :=
    fun hb => T3.compose_transformPoints ht hb (by intro e h; cases h) pts
  refine ⟨?_, ?_, ?_, ?_⟩
  · intro x y z h
    simp only [T3.translate, h, ok_bind]
    exact key (C31_translate x y z _ _ b h).affine
  · intro x y z h
    simp only [T3.scale, h, ok_bind]
    apply key
    unfold T3.mkScale at h
    rcases e : handleInput x y z true with e' | xyz
    · rw [e] at h; cases h
    · rw [e] at h
      cases h
      intro M hM
      obtain ⟨p, _, rfl⟩ := List.mem_map.1 hM
      rw [hom_diag]; exact mkHom_affine _ _
  · intro r h
    simp only [T3.rotate, h]
    apply key
    subst h
    intro M hM
    obtain ⟨R, _, rfl⟩ := List.mem_map.1 hM
    rw [hom_eq_mkHom]; exact mkHom_affine _ _
  · intro a ax deg h
    simp only [T3.rotateAxisAngle, h, ok_bind]
    apply key
    unfold T3.mkRotateAxisAngle at h
    split at h
    · split at h
      · rcases e : handleAngle a with e' | as
        · rw [e] at h; cases h
        · rw [e] at h
          cases h
          intro M hM
          obtain ⟨R, _, rfl⟩ := List.mem_map.1 hM
          rw [hom_eq_mkHom]; exact mkHom_affine _ _
      · cases h
    · cases h

/-- C67 is false as documented: "Scale by 0.5, then translate by (1, 2, 3)" — `Transform3d().scale(0.5).translate(1,2,3)`
sends the origin to `(0.5, 1, 1.5)`, not `(1, 2, 3)`. -/
theorem C67_documented_order_fails : ∃ I t s : T3, T3.init (.default 1) none none .f32 cpu = .ok I ∧
    I.scale (.coord (.scalar (1 / 2))) .none .none = .ok t ∧
    t.translate (.coord (.scalar 1)) (.scalar 2) (.scalar 3) = .ok s ∧
    s.transformPoints none (.flat !![0, 0, 0]) = .ok (.flat !![1 / 2, 1, 3 / 2]) := by
  have hs : (⟨.plain, [1], .f32, cpu, .f32, cpu⟩ : T3).scale (.coord (.scalar (1 / 2))) .none .none =
      .ok ⟨.plain, [mkHom (Matrix.diagonal ![1 / 2, 1 / 2, 1 / 2]) 0], .f32, cpu, .f32, cpu⟩ := by
    rw [← hom_diag]
    simp [T3.scale, T3.mkScale, handleInput, handleCoord, expandVec, pure_ok, ok_bind, T3.compose_one, bzip_left]
  have ht : (⟨.plain, [mkHom (Matrix.diagonal ![1 / 2, 1 / 2, 1 / 2]) 0], .f32, cpu, .f32, cpu⟩ : T3).translate
      (.coord (.scalar 1)) (.scalar 2) (.scalar 3) =
      .ok ⟨.plain, [mkHom (Matrix.diagonal ![1 / 2, 1 / 2, 1 / 2]) 0 * mkHom 1 ![1, 2, 3]], .f32, cpu, .f32, cpu⟩ := by
    rw [← hom_eq_mkHom 1]
    simp [T3.translate, T3.mkTranslate, handleInput, handleCoord, expandVec, pure_ok, ok_bind, T3.compose_one, bzip_left]
  refine ⟨_, _, _, init_default _ _, hs, ht, ?_⟩
  rw [C30_transform_points_flat _ _ _ (by simp)]
  · change Except.ok (Points.flat (actRows _ _)) = _
    rw [mkHom_mul]
    congr 2
    ext i j
    fin_cases i
    fin_cases j <;> simp [actRows, act, mkHom, Matrix.mulVec, dotProduct, Fin.sum_univ_three] <;> norm_num
  · simp only [List.mem_singleton, forall_eq]
    exact affine_mul (mkHom_affine _ _) (mkHom_affine _ _)

/-! ## C68 dtype and device -/

/-- C68 (partial): `t.to(device, dtype=d)` keeps the values, and for an object whose `dtype`/`device` attributes
describe its matrix, the result's matrix and attributes have the requested device and dtype. Missing: objects built by
`Translate`, `Scale`, `Rotate` with `dtype=float64` (`C68_subclass_dtype_fails`). -/
theorem C68_to_partial (t : T3) (device : Device) (copy : Bool) (dtype : Option DType) :
    (t.to device copy dtype).mats = t.mats ∧
    (t.dtype = t.mdtype → t.device = t.mdevice →
      (t.to device copy dtype).mdevice = device ∧ (t.to device copy dtype).device = device ∧
      (t.to device copy dtype).mdtype = dtype.getD t.dtype ∧ (t.to device copy dtype).dtype = dtype.getD t.dtype) := by
  unfold T3.to
  split_ifs with h
  · refine ⟨rfl, fun h1 h2 => ?_⟩
    obtain ⟨_, h4, h5⟩ := h
    refine ⟨h2.symm.trans h5, h5, ?_, ?_⟩ <;> rcases h4 with h4 | h4 <;> simp [h4, ← h1]
  · refine ⟨rfl, fun h1 h2 => ?_⟩
    simp [← h1]

/-- C68: every plain constructor, composition, inverse, stack and clone has attributes that describe its matrix. -/
theorem C68_attributes_consistent (t : T3) (us : List T3) :
    (∀ m p r d dev s, T3.init m p r d dev = .ok s → s.dtype = s.mdtype ∧ s.device = s.mdevice) ∧
    (∀ s, t.compose us = .ok s → s.dtype = s.mdtype ∧ s.device = s.mdevice) ∧
    (t.inverse.dtype = t.inverse.mdtype ∧ t.inverse.device = t.inverse.mdevice) ∧
    ((t.stack us).dtype = (t.stack us).mdtype ∧ (t.stack us).device = (t.stack us).mdevice) ∧
    (t.dtype = t.mdtype → t.device = t.mdevice → t.clone.dtype = t.clone.mdtype ∧ t.clone.device = t.clone.mdevice) := by
  refine ⟨?_, ?_, ⟨rfl, rfl⟩, ⟨rfl, rfl⟩, fun h1 h2 => ⟨h1, h2⟩⟩
  · intro m p r d dev s h
    unfold T3.init at h
    rcases e : initMatrix m with e' | ms
    · rw [e] at h; cases h
    rw [e] at h
    simp only [ok_bind] at h
    rcases e : setPos ms p with e' | ms
    · rw [e] at h; cases h
    rw [e] at h
    simp only [ok_bind] at h
    rcases e : setRot ms r with e' | ms
    · rw [e] at h; cases h
    rw [e] at h
    cases h
    exact ⟨rfl, rfl⟩
  · intro s h
    unfold T3.compose at h
    rcases e : us.foldlM (fun mat o => bzip (· * ·) mat o.mats) t.mats with e' | m
    · rw [e] at h; cases h
    rw [e] at h
    cases h
    exact ⟨rfl, rfl⟩

/-- C68 is false for the subclasses: a float64 `Translate` asked for float32 returns itself, still float64; asked for
float64 on the same device it is copied although nothing has to change. -/
theorem C68_subclass_dtype_fails : ∃ t : T3,
    T3.mkTranslate (.coord (.scalar 1)) (.scalar 2) (.scalar 3) .f64 cpu = .ok t ∧ t.mdtype = .f64 ∧ t.dtype = .f32 ∧
    t.to cpu false (some .f32) = t ∧ (t.to cpu false (some .f32)).mdtype = .f64 ∧
    (t.to cpu false (some .f64)).kind = .plain := by
  refine ⟨_, rfl, rfl, rfl, ?_, ?_, ?_⟩
  · simp [T3.to]
  · simp [T3.to]
  · simp [T3.to]

example : T3.to ⟨.plain, [1], .f32, 0, .f32, 0⟩ 1 false (some .f64) = ⟨.plain, [1], .f64, 1, .f64, 1⟩ := by simp [T3.to]

/-! ## C69 shape operators -/

/-- C69 (partial): for a rigid transform of any class and `(P,3,3)` shape operators with compatible sizes, element `i`
becomes `R S Rᵀ`. Missing: the documented `(N,P,3,3)` input, which always raises (`C69_four_dim_fails`). -/
theorem C69_shape_operator_partial (t : T3) (ht : Regular t) (hr : ∀ M ∈ t.mats, IsRigid M) (ss : List M3)
    (h : Compat ss.length t.mats.length) :
    ∃ out, t.transformShapeOperator (.batch ss) = .ok out ∧ out.length = bsize ss.length t.mats.length ∧
      ∀ i (hi : i < out.length), ∃ S M, pick ss i = some S ∧ pick t.mats i = some M ∧
        out[i] = rotPart M * S * (rotPart M)ᵀ := by
  have hinv : ∀ M ∈ t.mats, rotPart (invOf t.kind M) = (rotPart M)ᵀ := by
    intro M hM
    have h1 := rotPart_inv_mul ht hM
    have hR : IsRot (rotPart M) := (hr M hM).1
    calc rotPart (invOf t.kind M) = rotPart (invOf t.kind M) * (rotPart M * (rotPart M)ᵀ) := by
          rw [hR.mul_transpose, mul_one]
      _ = (rotPart M)ᵀ := by rw [← mul_assoc, h1, one_mul]
  have hmat : t.inverse.mats.map rotPart = t.mats.map fun M => (rotPart M)ᵀ := by
    simp only [T3.inverse, matrixInverse_eq, List.map_map]
    exact List.map_congr_left fun M hM => hinv M hM
  have hl : Compat ss.length (t.mats.map fun M => (rotPart M)ᵀ).length := by simpa using h
  obtain ⟨inner, hi⟩ := bzip_compat_ok (fun x y : M3 => x * y) hl
  have hin := bzip_ok_get hi
  have hl2 : Compat ((t.mats.map fun M => (rotPart M)ᵀ).map Matrix.transpose).length inner.length := by
    rw [hin.1]
    simp only [List.length_map]
    unfold Compat bsize at *
    simp only [List.length_map] at hl
    split_ifs <;> omega
  obtain ⟨out, ho⟩ := bzip_compat_ok (fun x y : M3 => x * y) hl2
  have hout := bzip_ok_get ho
  refine ⟨out, ?_, ?_, ?_⟩
  · simp only [T3.transformShapeOperator, hmat, hi, ok_bind, ho]
  · rw [hout.1, hin.1]
    simp only [List.length_map]
    unfold Compat bsize at *
    simp only [List.length_map] at hl
    split_ifs <;> omega
  · intro i hii
    obtain ⟨A, B, hA, hB, e⟩ := hout.2 i hii
    have hBi : ∃ S M', pick ss i = some S ∧ pick (t.mats.map fun M => (rotPart M)ᵀ) i = some M' ∧ B = S * M' := by
      by_cases h1 : inner.length = 1
      · have hB' : inner[0] = B := by
          simpa [pick, h1] using hB
        obtain ⟨S, M', h2, h3, h4⟩ := hin.2 0 (by omega)
        have hs1 : ss.length = 1 ∧ t.mats.length = 1 ∨ ss.length ≠ 1 ∧ ss.length = 1 ∨ ss.length = 1 ∧ t.mats.length = 1 := by
          have := hin.1
          simp only [List.length_map] at this
          unfold Compat at h
          unfold bsize at this
          split_ifs at this <;> omega
        have hs2 : ss.length = 1 ∧ t.mats.length = 1 := by omega
        refine ⟨S, M', ?_, ?_, ?_⟩
        · simpa [pick, hs2.1] using h2
        · simpa [pick, hs2.2] using h3
        · rw [← hB', h4]
      · have hB' : inner[i]? = some B := by simpa [pick, h1] using hB
        obtain ⟨h2, h3⟩ := List.getElem?_eq_some_iff.1 hB'
        obtain ⟨S, M', h4, h5, h6⟩ := hin.2 i h2
        exact ⟨S, M', h4, h5, by rw [← h3, h6]⟩
    obtain ⟨S, M', hS, hM', rfl⟩ := hBi
    rw [pick_map] at hM'
    rw [List.map_map, pick_map] at hA
    obtain ⟨M, hM, rfl⟩ := Option.map_eq_some_iff.1 hM'
    rw [hM] at hA
    refine ⟨S, M, hS, hM, ?_⟩
    have : A = rotPart M := by simpa [eq_comm] using hA
    rw [e, this, mul_assoc]

/-- C69 is false for the documented `(N,P,3,3)` shape: it always raises. -/
theorem C69_four_dim_fails (t : T3) (ss : List (List M3)) : ∃ e, t.transformShapeOperator (.batch4 ss) = .error e := by
  simp only [T3.transformShapeOperator]
  split_ifs
  · exact ⟨_, rfl⟩
  · exact ⟨_, rfl⟩

/-! ## C70 RotateAxisAngle -/

/-- C70: `RotateAxisAngle(angles, axis)` holds, for each angle, the right-handed rotation about the named axis, in
degrees or radians; upper and lower case letters are accepted. -/
theorem C70_rotate_axis_angle (a : XYZ) (c : Char) (hc : c = a.upper ∨ c = a.lower) (deg : Bool) (dev : Device)
    (x : ℝ) (xs : List ℝ) :
    (∃ t, T3.mkRotateAxisAngle (.scalar x) [c] deg dev = .ok t ∧
      t.mats = [mkHom (rotAbout a.vec (if deg then x * (π / 180) else x)) 0]) ∧
    (∃ t, T3.mkRotateAxisAngle (.vec xs) [c] deg dev = .ok t ∧
      t.mats = xs.map fun x => mkHom (rotAbout a.vec (if deg then x * (π / 180) else x)) 0) := by
  have hl : letterAx (Char.toUpper c) = some (axOf a) := by
    rcases hc with rfl | rfl <;> cases a <;> decide
  have key : ∀ ang as, handleAngle ang = .ok as → ∃ t, T3.mkRotateAxisAngle ang [c] deg dev = .ok t ∧
      t.mats = as.map fun x => mkHom (rotAbout a.vec (if deg then x * (π / 180) else x)) 0 := by
    intro ang as h
    simp only [T3.mkRotateAxisAngle, List.map_cons, List.map_nil, hl, h, ok_bind, pure_ok]
    refine ⟨_, rfl, ?_⟩
    simp only [T3.mkRotate, RotArg.toMats]
    have he : ∀ y, axisAngleRotation (axOf a) y = rotAbout a.vec y := fun y => axisAngleRotation_eq a y
    cases deg
    · simp [he, hom_eq_mkHom, Function.comp_def]
    · simp only [if_true, List.map_map]
      apply List.map_congr_left
      intro y _
      simp only [Function.comp_apply, he, hom_eq_mkHom]
      congr 2
      ring
  exact ⟨by simpa using key (.scalar x) [x] rfl, key (.vec xs) xs rfl⟩

/-- C70: a positive angle turns counter-clockwise: 90 degrees about Z takes the x axis to the y axis. -/
theorem C70_counter_clockwise : ∃ t, T3.mkRotateAxisAngle (.scalar 90) ['z'] true cpu = .ok t ∧
    t.transformPoints none (.flat !![1, 0, 0]) = .ok (.flat !![0, 1, 0]) := by
  obtain ⟨⟨t, h1, h2⟩, _⟩ := C70_rotate_axis_angle .z 'z' (Or.inr rfl) true cpu 90 []
  refine ⟨t, h1, ?_⟩
  rw [C30_transform_points_flat _ _ _ (by simp), h2]
  · change Except.ok (Points.flat (actRows _ _)) = _
    have : (90 : ℝ) * (π / 180) = π / 2 := by ring
    simp only [if_true, this]
    congr 2
    ext i j
    fin_cases i
    fin_cases j <;> simp [actRows, act, mkHom, XYZ.vec, rotAbout, rodrigues, cross_apply, Pi.single_apply]
  · rw [h2]
    simp only [List.mem_singleton, forall_eq]
    exact mkHom_affine _ _

/-- C70: any other axis name raises `ValueError`, as does a tensor of angles of rank two or more. -/
theorem C70_rejects (axis : List Char) (h : ∀ a : XYZ, axis.map Char.toUpper ≠ [a.upper]) (ang : AngleArg) (deg : Bool)
    (dev : Device) (a : XYZ) : T3.mkRotateAxisAngle ang axis deg dev = .error .valueError ∧
    T3.mkRotateAxisAngle .bad [a.upper] deg dev = .error .valueError := by
  constructor
  · unfold T3.mkRotateAxisAngle
    split
    · rename_i c hc
      split
      · rename_i a' ha
        exfalso
        unfold letterAx at ha
        split_ifs at ha with h1 h2 h3
        · exact h .x (by rw [hc, h1]; rfl)
        · exact h .y (by rw [hc, h2]; rfl)
        · exact h .z (by rw [hc, h3]; rfl)
      · rfl
    · rfl
  · cases a <;> rfl

example : ∀ a : XYZ, "w".toList.map Char.toUpper ≠ [a.upper] := by intro a; cases a <;> decide

/-! ## C71 Translate and Scale arguments -/

/-- a coordinate argument that is present -/
def Coord.list : Coord → Option (List ℝ)
  | .none => Option.none
  | .scalar x => some [x]
  | .vec xs => some xs

theorem expandVec_pick (n : ℕ) {l : List ℝ} (h : l.length = 1 ∨ l.length = n) :
    (expandVec n l).length = n ∧ ∀ i (hi : i < (expandVec n l).length), pick l i = some (expandVec n l)[i] := by
  rcases l with _ | ⟨x, _ | ⟨y, l⟩⟩
  · simp at h
    subst h
    exact ⟨rfl, fun i hi => by simp [expandVec] at hi⟩
  · refine ⟨by simp [expandVec], fun i hi => by simp [expandVec, pick]⟩
  · simp at h
    subst h
    exact ⟨rfl, fun i hi => pick_of_lt hi⟩

theorem handleInput_coords (c cy cz : Coord) (xs ys zs : List ℝ) (hx : c.list = some xs) (hy : cy.list = some ys)
    (hz : cz.list = some zs) (b : Bool) (n : ℕ) (hn : n = max xs.length (max ys.length zs.length)) :
    ((xs.length = 1 ∨ xs.length = n) ∧ (ys.length = 1 ∨ ys.length = n) ∧ (zs.length = 1 ∨ zs.length = n) →
      ∃ rows, handleInput (.coord c) cy cz b = .ok rows ∧ rows.length = n ∧
        ∀ i (hi : i < rows.length), pick xs i = some (rows[i] 0) ∧ pick ys i = some (rows[i] 1) ∧
          pick zs i = some (rows[i] 2)) ∧
    (¬ ((xs.length = 1 ∨ xs.length = n) ∧ (ys.length = 1 ∨ ys.length = n) ∧ (zs.length = 1 ∨ zs.length = n)) →
      handleInput (.coord c) cy cz b = .error .valueError) := by
  have h1 : handleCoord c = .ok xs := by cases c <;> simp [Coord.list] at hx <;> simp [handleCoord, hx]
  have h2 : handleCoord cy = .ok ys := by cases cy <;> simp [Coord.list] at hy <;> simp [handleCoord, hy]
  have h3 : handleCoord cz = .ok zs := by cases cz <;> simp [Coord.list] at hz <;> simp [handleCoord, hz]
  have hu : handleInput (.coord c) cy cz b =
      (if (xs.length ≠ 1 ∧ xs.length ≠ n) ∨ (ys.length ≠ 1 ∧ ys.length ≠ n) ∨ (zs.length ≠ 1 ∧ zs.length ≠ n) then
        .error .valueError
      else .ok (List.zipWith (fun a bc => ![a, bc.1, bc.2]) (expandVec n xs) ((expandVec n ys).zip (expandVec n zs)))) := by
    subst hn
    unfold handleInput
    cases cy with
    | none => simp [Coord.list] at hy
    | scalar y => cases b <;> simp only [h1, h2, h3, ok_bind] <;> rfl
    | vec y => cases b <;> simp only [h1, h2, h3, ok_bind] <;> rfl
  constructor
  · intro ⟨a1, a2, a3⟩
    obtain ⟨l1, p1⟩ := expandVec_pick n a1
    obtain ⟨l2, p2⟩ := expandVec_pick n a2
    obtain ⟨l3, p3⟩ := expandVec_pick n a3
    rw [hu, if_neg (by tauto)]
    refine ⟨_, rfl, by simp [l1, l2, l3], ?_⟩
    intro i hi
    simp only [List.length_zipWith, List.length_zip, l1, l2, l3, min_self] at hi
    simp only [List.getElem_zipWith, List.getElem_zip]
    exact ⟨p1 i (by omega), p2 i (by omega), p3 i (by omega)⟩
  · intro hnot
    rw [hu, if_pos (by tauto)]

/-- C71: `Translate(x,y,z)` and `Scale(x,y,z)` broadcast scalars and 1-D tensors to the longest one, element `i` being
the translation by (scaling by) `(x_i, y_i, z_i)`; sizes that are neither 1 nor the longest raise `ValueError`. -/
theorem C71_coordinates (c cy cz : Coord) (xs ys zs : List ℝ) (hx : c.list = some xs) (hy : cy.list = some ys)
    (hz : cz.list = some zs) (d : DType) (dev : Device) (n : ℕ) (hn : n = max xs.length (max ys.length zs.length)) :
    ((xs.length = 1 ∨ xs.length = n) ∧ (ys.length = 1 ∨ ys.length = n) ∧ (zs.length = 1 ∨ zs.length = n) →
      ∃ t s, T3.mkTranslate (.coord c) cy cz d dev = .ok t ∧ T3.mkScale (.coord c) cy cz d dev = .ok s ∧
        t.mats.length = n ∧ s.mats.length = n ∧
        ∀ i, (hi : i < n) → ∃ p : V3, pick xs i = some (p 0) ∧ pick ys i = some (p 1) ∧ pick zs i = some (p 2) ∧
          t.mats[i]? = some (mkHom 1 p) ∧ s.mats[i]? = some (mkHom (Matrix.diagonal p) 0)) ∧
    (¬ ((xs.length = 1 ∨ xs.length = n) ∧ (ys.length = 1 ∨ ys.length = n) ∧ (zs.length = 1 ∨ zs.length = n)) →
      T3.mkTranslate (.coord c) cy cz d dev = .error .valueError ∧
      T3.mkScale (.coord c) cy cz d dev = .error .valueError) := by
  obtain ⟨f1, f2⟩ := handleInput_coords c cy cz xs ys zs hx hy hz false n hn
  obtain ⟨t1, t2⟩ := handleInput_coords c cy cz xs ys zs hx hy hz true n hn
  constructor
  · intro h
    obtain ⟨r, hr, rl, rp⟩ := f1 h
    obtain ⟨q, hq, ql, qp⟩ := t1 h
    refine ⟨_, _, by simp only [T3.mkTranslate, hr, ok_bind]; rfl, by simp only [T3.mkScale, hq, ok_bind]; rfl,
      by simp [rl], by simp [ql], ?_⟩
    intro i hi
    refine ⟨r[i]'(by omega), (rp i _).1, (rp i _).2.1, (rp i _).2.2, ?_, ?_⟩
    · simp [rl, hi, hom_eq_mkHom]
    · have he : r[i]'(by omega) = q[i]'(by omega) := by
        have h1 := rp i (by omega)
        have h2 := qp i (by omega)
        apply v3_ext
        · exact Option.some.inj (h1.1.symm.trans h2.1)
        · exact Option.some.inj (h1.2.1.symm.trans h2.2.1)
        · exact Option.some.inj (h1.2.2.symm.trans h2.2.2)
      rw [he, ← hom_diag]
      simp [ql, hi]
  · intro h
    simp only [T3.mkTranslate, T3.mkScale, f2 h, t2 h]
    exact ⟨rfl, rfl⟩

/-- C71: an `(N,3)` tensor gives one element per row, and excludes `y` and `z`; other widths raise; `Scale(x)` scales
uniformly; `Translate(x)` alone raises `RuntimeError`. -/
theorem C71_tensor_and_singleton (rows : List V3) (y z : Coord) (x : ℝ) (d : DType) (dev : Device) :
    (∃ t s, T3.mkTranslate (.mat3 rows) .none .none d dev = .ok t ∧ t.mats = rows.map (mkHom 1) ∧
      T3.mkScale (.mat3 rows) .none .none d dev = .ok s ∧ s.mats = rows.map fun p => mkHom (Matrix.diagonal p) 0) ∧
    ((y.list ≠ Option.none ∨ z.list ≠ Option.none) → T3.mkTranslate (.mat3 rows) y z d dev = .error .valueError ∧
      T3.mkScale (.mat3 rows) y z d dev = .error .valueError) ∧
    (T3.mkTranslate .matBad y z d dev = .error .valueError ∧ T3.mkScale .matBad y z d dev = .error .valueError) ∧
    (∃ s, T3.mkScale (.coord (.scalar x)) .none .none d dev = .ok s ∧
      s.mats = [mkHom (Matrix.diagonal fun _ => x) 0]) ∧
    T3.mkTranslate (.coord (.scalar x)) .none .none d dev = .error .runtimeError := by
  refine ⟨⟨_, _, rfl, ?_, rfl, ?_⟩, ?_, ⟨rfl, rfl⟩, ⟨_, rfl, ?_⟩, rfl⟩
  · simp [hom_eq_mkHom]
  · exact List.map_congr_left fun p _ => hom_diag p
  · intro h
    cases y <;> cases z <;> simp [Coord.list] at h <;> exact ⟨rfl, rfl⟩
  · rw [← hom_diag]
    simp [expandVec]

example : Coord.list (.vec [1, 2]) = some [1, 2] ∧ (([1, 2] : List ℝ).length = 2) := ⟨rfl, rfl⟩

end PK
