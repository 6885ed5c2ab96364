import Verif.Lemmas.TensorExpr

/-!
# The conversions on tensors are the conversions of each element
-/

namespace PK
/-- a quaternion as four numbers -/
def Quat.vec (q : Quat) : Fin 4 → ℝ := ![q.w, q.x, q.y, q.z]
/-- four numbers as a quaternion -/
def Quat.ofVec (v : Fin 4 → ℝ) : Quat := ⟨v 0, v 1, v 2, v 3⟩

theorem Quat.ofVec_vec (q : Quat) : Quat.ofVec q.vec = q := rfl

namespace Tn
variable (d : DType) (v : Device) (s : Shape)

theorem pure_eq {α : Type} (a : α) : (pure a : Except Err α) = .ok a := rfl

theorem TE.atB_leaf_same {t : Tag} {s : Shape} {f : List ℕ → ℝ} {i : List ℕ} (hi : ValidIx i s) :
    (TE.leaf (ofFn t s f)).atB i = f i := by
  rw [TE.atB_leaf (bshape_self s) hi, bidx_valid hi]

theorem ofV_congr {α : Type} [Inhabited α] {t : Tag} {s : Shape} {n : ℕ} {f g : List ℕ → Fin n → α}
    (h : ∀ i, ValidIx i s → f i = g i) : ofV t s n f = ofV t s n g :=
  eq_ofV rfl rfl fun i k hk hi => by rw [ofV_get hi hk, h i hi]

theorem ofM_congr {α : Type} [Inhabited α] {t : Tag} {s : Shape} {n m : ℕ} {f g : List ℕ → Fin n → Fin m → α}
    (h : ∀ i, ValidIx i s → f i = g i) : ofM t s n m f = ofM t s n m g :=
  eq_ofM rfl rfl fun i r c hr hc hi => by rw [ofM_get hi hr hc, h i hi]

theorem quaternionToMatrix_V (q : List ℕ → Fin 4 → ℝ) :
    quaternionToMatrix (ofV (flTag d v) s 4 q) =
      .ok (ofM (flTag d v) s 3 3 fun i r c => PK.quaternionToMatrix (.ofVec (q i)) r c) := by
  rw [quaternionToMatrix, unbind_V4, ok_bind, unpack4, ok_bind, mul, bin_V]
  dsimp only
  rw [ok_bind, sum_V, ok_bind]
  rw [map_S, stackE_eq (d := d) (v := v) (r := s) (by simp [ok_bind, bshape_self])]
  simp only [List.map_cons, List.map_nil]
  rw [stackLast_S9, ok_bind, ofV_shape, List.dropLast_concat, reshape_V9]
  congr 1
  refine ofM_congr fun i hi => ?_
  funext r c
  fin_cases r <;> fin_cases c <;>
    simp [TE.atB_leaf_same hi, PK.quaternionToMatrix, Quat.ofVec, Quat.normSq, Fin.sum_univ_four]

theorem copysign_S (a b : List ℕ → ℝ) :
    copysign (ofFn (flTag d v) s a) (ofFn (flTag d v) s b) = .ok (ofFn (flTag d v) s fun i => PK.copysign (a i) (b i)) := by
  rw [copysign, test_S, test_S, neB, bin_S, ok_bind, map_S, sel_S (t := flTag d v) (c := eqT (flTag d v)) rfl]
  congr 1
  refine ofFn_congr fun i _ => ?_
  by_cases h : a i < 0 <;> by_cases h' : b i < 0 <;> simp [PK.copysign, h, h']

theorem sqrtPositivePart_V (n : ℕ) (x : List ℕ → Fin n → ℝ) :
    sqrtPositivePart (ofV (flTag d v) s n x) = ofV (flTag d v) s n fun i k => PK.sqrtPositivePart (x i k) := by
  rw [sqrtPositivePart, map_V, map_V]
  rfl

theorem unbind_M33 (t : Tag) (m : List ℕ → Fin 3 → Fin 3 → ℝ) :
    (reshape (ofM t s 3 3 m) (s ++ [9]) >>= unbind) = .ok [ofFn t s fun i => m i 0 0, ofFn t s fun i => m i 0 1,
      ofFn t s fun i => m i 0 2, ofFn t s fun i => m i 1 0, ofFn t s fun i => m i 1 1, ofFn t s fun i => m i 1 2,
      ofFn t s fun i => m i 2 0, ofFn t s fun i => m i 2 1, ofFn t s fun i => m i 2 2] := by
  rw [reshape_M33, ok_bind, unbind_V9]
  rfl

/-- `q_abs` of `matrix_to_quaternion` -/
noncomputable def qAbs (m : Fin 3 → Fin 3 → ℝ) : Fin 4 → ℝ :=
  ![PK.sqrtPositivePart (1 + m 0 0 + m 1 1 + m 2 2),
    PK.sqrtPositivePart (1 + m 0 0 - m 1 1 - m 2 2),
    PK.sqrtPositivePart (1 - m 0 0 + m 1 1 - m 2 2),
    PK.sqrtPositivePart (1 - m 0 0 - m 1 1 + m 2 2)]

/-- the rows of `quat_by_rijk` -/
noncomputable def rijk (m : Fin 3 → Fin 3 → ℝ) : Fin 4 → Fin 4 → ℝ :=
  ![![qAbs m 0 ^ 2, m 2 1 - m 1 2, m 0 2 - m 2 0, m 1 0 - m 0 1],
    ![m 2 1 - m 1 2, qAbs m 1 ^ 2, m 1 0 + m 0 1, m 0 2 + m 2 0],
    ![m 0 2 - m 2 0, m 1 0 + m 0 1, qAbs m 2 ^ 2, m 1 2 + m 2 1],
    ![m 1 0 - m 0 1, m 2 0 + m 0 2, m 2 1 + m 1 2, qAbs m 3 ^ 2]]

theorem matrixToQuaternion_vec (m : Fin 3 → Fin 3 → ℝ) (c : Fin 4) : (PK.matrixToQuaternion (.of m)).vec c =
    rijk m (argmax4 (qAbs m)) c / (2 * max (qAbs m (argmax4 (qAbs m))) 0.1) := by
  unfold PK.matrixToQuaternion
  dsimp only
  simp only [Matrix.of_apply]
  rw [← qAbs]
  generalize argmax4 (qAbs m) = k
  fin_cases k <;> fin_cases c <;> simp [rijk, Quat.vec]

theorem matrixToQuaternion_M (m : List ℕ → Fin 3 → Fin 3 → ℝ) :
    matrixToQuaternion (ofM (flTag d v) s 3 3 m) =
      .ok (ofV (flTag d v) s 4 fun i => (PK.matrixToQuaternion (.of (m i))).vec) := by
  rw [matrixToQuaternion, ofM_shape, shape_rev2]
  dsimp only
  rw [if_pos ⟨rfl, rfl⟩, List.reverse_reverse, ← bind_assoc, unbind_M33, ok_bind, unpack9, ok_bind]
  dsimp only [Matrix.cons_val]
  rw [stackE_eq (d := d) (v := v) (r := s) (by simp [ok_bind, bshape_self])]
  simp only [List.map_cons, List.map_nil]
  rw [stackLast_S4, ok_bind, sqrtPositivePart_V]
  have hq : (ofV (flTag d v) s 4 fun i k => PK.sqrtPositivePart (![
      TE.atB (TE.un (fun x => 1 + x) (TE.leaf (ofFn (flTag d v) s fun i => m i 0 0)) +
        TE.leaf (ofFn (flTag d v) s fun i => m i 1 1) + TE.leaf (ofFn (flTag d v) s fun i => m i 2 2)) i,
      TE.atB (TE.un (fun x => 1 + x) (TE.leaf (ofFn (flTag d v) s fun i => m i 0 0)) -
        TE.leaf (ofFn (flTag d v) s fun i => m i 1 1) - TE.leaf (ofFn (flTag d v) s fun i => m i 2 2)) i,
      TE.atB (TE.un (fun x => 1 - x) (TE.leaf (ofFn (flTag d v) s fun i => m i 0 0)) +
        TE.leaf (ofFn (flTag d v) s fun i => m i 1 1) - TE.leaf (ofFn (flTag d v) s fun i => m i 2 2)) i,
      TE.atB (TE.un (fun x => 1 - x) (TE.leaf (ofFn (flTag d v) s fun i => m i 0 0)) -
        TE.leaf (ofFn (flTag d v) s fun i => m i 1 1) + TE.leaf (ofFn (flTag d v) s fun i => m i 2 2)) i] k)) =
      ofV (flTag d v) s 4 fun i => qAbs (m i) := by
    refine ofV_congr fun i hi => ?_
    funext k
    fin_cases k <;> simp [TE.atB_leaf_same hi, qAbs]
  rw [hq, selectLast_V _ _ _ _ (show 0 < 4 by omega), selectLast_V _ _ _ _ (show 1 < 4 by omega),
    selectLast_V _ _ _ _ (show 2 < 4 by omega), selectLast_V _ _ _ _ (show 3 < 4 by omega)]
  simp only [ok_bind]
  rw [stackE_eq (d := d) (v := v) (r := s) (by simp [ok_bind, bshape_self]),
    stackE_eq (d := d) (v := v) (r := s) (by simp [ok_bind, bshape_self]),
    stackE_eq (d := d) (v := v) (r := s) (by simp [ok_bind, bshape_self]),
    stackE_eq (d := d) (v := v) (r := s) (by simp [ok_bind, bshape_self])]
  simp only [List.map_cons, List.map_nil]
  rw [stackLast_S4, ok_bind, stackLast_S4, ok_bind, stackLast_S4, ok_bind, stackLast_S4, ok_bind, stackRows_V4, ok_bind,
    unsqueeze_V, ofV_tag, maxT, bin_Mfull, ok_bind, map_M, div, bin_M1, ok_bind, argmaxLast4_V, ok_bind]
  rw [unsqueeze_S, unsqueeze_V, expand_M11, ok_bind, gatherRow_M, ok_bind, squeezeRow_M]
  congr 1
  refine ofV_congr fun i hi => ?_
  funext c
  refine Eq.trans ?_ (matrixToQuaternion_vec (m i) c).symm
  congr 1
  generalize argmax4 (qAbs (m i)) = k
  fin_cases k <;> fin_cases c <;> simp [rijk, TE.atB_leaf_same hi]

theorem axisAngleRotation_S (ax : Ax) (a : List ℕ → ℝ) :
    axisAngleRotation ax (ofFn (flTag d v) s a) = .ok (ofM (flTag d v) s 3 3 fun i r c => PK.axisAngleRotation ax (a i) r c) := by
  rw [axisAngleRotation.eq_def, map_S, map_S, fullLike_S, fullLike_S]
  dsimp only
  rw [map_S]
  cases ax <;>
  · dsimp only
    rw [stackLast_S9, ok_bind, ofFn_shape, reshape_V9]
    congr 1
    refine ofM_congr fun i hi => ?_
    funext r c
    fin_cases r <;> fin_cases c <;> simp [PK.axisAngleRotation]

theorem eulerAnglesToMatrix_V (e : List ℕ → Fin 3 → ℝ) (conv : List Char) :
    eulerAnglesToMatrix (ofV (flTag d v) s 3 e) conv = match parseConvention conv with
      | .error er => .error er
      | .ok (a, b, c) => .ok (ofM (flTag d v) s 3 3 fun i r k =>
          (PK.axisAngleRotation a (e i 0) * PK.axisAngleRotation b (e i 1) * PK.axisAngleRotation c (e i 2)) r k) := by
  rw [eulerAnglesToMatrix, ofV_shape, List.getLast?_concat, if_neg (by simp)]
  cases h : parseConvention conv with
  | error er => rfl
  | ok abc =>
    obtain ⟨a, b, c⟩ := abc
    dsimp only
    rw [unbind_V3, ok_bind, unpack3, ok_bind]
    dsimp only
    rw [axisAngleRotation_S, ok_bind, axisAngleRotation_S, ok_bind, axisAngleRotation_S, ok_bind, matmulT_M, ok_bind,
      matmulT_M]
    rfl

theorem angleFromTan_V (axis other : Ax) (data : List ℕ → Fin 3 → ℝ) (h t : Bool) :
    angleFromTan axis other (ofV (flTag d v) s 3 data) h t =
      .ok (ofFn (flTag d v) s fun i => PK.angleFromTan axis other (data i) h t) := by
  have e0 := selectLast_V (flTag d v) s 3 data (show 0 < 3 by omega)
  have e1 := selectLast_V (flTag d v) s 3 data (show 1 < 3 by omega)
  have e2 := selectLast_V (flTag d v) s 3 data (show 2 < 3 by omega)
  cases axis <;> cases other <;> cases h <;> cases t <;>
    simp [angleFromTan, e0, e1, e2, ok_bind, atan2T, bin_S, map_S, PK.angleFromTan]

theorem matrixToEulerAngles_M (m : List ℕ → Fin 3 → Fin 3 → ℝ) (conv : List Char) :
    ∃ f : List ℕ → Fin 3 → ℝ, (matrixToEulerAngles (ofM (flTag d v) s 3 3 m) conv = match parseConvention conv with
      | .error er => .error er
      | .ok _ => .ok (ofV (flTag d v) s 3 f)) ∧
      ∀ i, PK.matrixToEulerAngles (.of (m i)) conv = match parseConvention conv with
        | .error er => .error er
        | .ok _ => .ok (f i) := by
  cases h : parseConvention conv with
  | error er => exact ⟨fun _ _ => 0, by rw [matrixToEulerAngles, h], fun i => by rw [PK.matrixToEulerAngles, h]⟩
  | ok abc =>
    obtain ⟨a, b, c⟩ := abc
    refine ⟨_, ?_, fun i => by rw [PK.matrixToEulerAngles, h]⟩
    rw [matrixToEulerAngles, h]
    dsimp only
    rw [ofM_shape, shape_rev2]
    dsimp only
    rw [if_pos ⟨rfl, rfl⟩, selectRow_M _ _ _ _ _ (indexFromLetter a).isLt, ok_bind, ok_bind,
      selectLast_V _ _ _ _ (indexFromLetter c).isLt, selectLast_V _ _ _ _ (indexFromLetter a).isLt, ok_bind, ok_bind,
      selectLast_M _ _ _ _ _ (indexFromLetter c).isLt, map_S, map_S, map_S]
    split_ifs with ht <;>
    · rw [pure_eq, ok_bind, ok_bind, angleFromTan_V, ok_bind, ok_bind, angleFromTan_V, ok_bind, stackLast_S3]
      rfl

/-- a quaternion times a number -/
theorem randomQuaternions_V (o : List ℕ → Fin 4 → ℝ) :
    randomQuaternions (ofV (flTag d v) s 4 o) =
      .ok (ofV (flTag d v) s 4 fun i => (PK.randomQuaternion (.ofVec (o i))).vec) := by
  rw [randomQuaternions, mul, bin_V, ok_bind, sum_V, ok_bind, map_S, selectLast_V _ _ _ _ (show 0 < 4 by omega), ok_bind,
    copysign_S, ok_bind, unsqueeze_S, div, bin_V1]
  congr 1
  refine ofV_congr fun i hi => ?_
  funext k
  fin_cases k <;> simp [PK.randomQuaternion, Quat.ofVec, Quat.vec, Quat.normSq, Fin.sum_univ_four]

theorem standardizeQuaternion_V (q : List ℕ → Fin 4 → ℝ) :
    standardizeQuaternion (ofV (flTag d v) s 4 q) =
      .ok (ofV (flTag d v) s 4 fun i => (PK.standardizeQuaternion (.ofVec (q i))).vec) := by
  rw [standardizeQuaternion, sliceLast_V _ _ _ _ 0 1 (by omega) (l := 1) rfl (by omega), ok_bind, test_V, map_V,
    sel_1V (t := flTag d v) (c := eqT (flTag d v)) rfl]
  congr 1
  refine ofV_congr fun i hi => ?_
  funext k
  by_cases h : q i 0 < 0 <;> fin_cases k <;> simp [PK.standardizeQuaternion, Quat.ofVec, Quat.vec, h]

theorem quaternionRawMultiply_V {sa sb r : Shape} (h : bshape sa sb = .ok r) (a b : List ℕ → Fin 4 → ℝ) :
    quaternionRawMultiply (ofV (flTag d v) sa 4 a) (ofV (flTag d v) sb 4 b) =
      .ok (ofV (flTag d v) r 4 fun i =>
        (PK.quaternionRawMultiply (.ofVec (a (bidx sa i))) (.ofVec (b (bidx sb i)))).vec) := by
  rw [quaternionRawMultiply, unbind_V4, ok_bind, unpack4, ok_bind]
  dsimp only
  rw [unbind_V4, ok_bind, unpack4, ok_bind]
  dsimp only
  rw [stackE_eq (d := d) (v := v) (r := r) (by simp [ok_bind, bshape_self, h])]
  simp only [List.map_cons, List.map_nil]
  rw [stackLast_S4]
  congr 1
  refine ofV_congr fun i hi => ?_
  have ha := (bshape_absorb h).1.2
  have hb := (bshape_absorb h).2.2
  funext k
  fin_cases k <;> simp [TE.atB_leaf ha hi, TE.atB_leaf hb hi, PK.quaternionRawMultiply, Quat.vec, Quat.ofVec]

theorem quaternionMultiply_V {sa sb r : Shape} (h : bshape sa sb = .ok r) (a b : List ℕ → Fin 4 → ℝ) :
    quaternionMultiply (ofV (flTag d v) sa 4 a) (ofV (flTag d v) sb 4 b) =
      .ok (ofV (flTag d v) r 4 fun i =>
        (PK.quaternionMultiply (.ofVec (a (bidx sa i))) (.ofVec (b (bidx sb i)))).vec) := by
  rw [quaternionMultiply, quaternionRawMultiply_V d v h, ok_bind, standardizeQuaternion_V]
  rfl

theorem bin_VC (f : ℝ → ℝ → ℝ) (t : Tag) (n : ℕ) (a : List ℕ → Fin n → ℝ) (g : List ℕ → ℝ) :
    bin f (ofV t s n a) (ofFn t [n] g) = .ok (ofV t s n fun i k => f (a i k) (g [k.val])) := by
  have hb : bshape (s ++ [n]) [n] = .ok (s ++ [n]) := bshape_snoc (t := []) (bshape_nil_right s) (.inl ⟨rfl, rfl⟩)
  rw [bin_bcast (t := t) (s := s ++ [n]) (s' := [n]) f rfl rfl rfl rfl hb]
  congr 1
  refine eq_ofV rfl rfl fun i k hk hi => ?_
  have hik : ValidIx (i ++ [k]) (s ++ [n]) := validIx_snoc.2 ⟨hi, hk⟩
  rw [ofFn_get hik, bidx_valid hik, ofV_get hi hk, ofFn_get (bidx_right hb hik)]
  have : bidx ([] ++ [n]) (i ++ [k]) = [k] := by
    rw [bidx_snoc, bidx_nil, List.nil_append]
    split_ifs <;> simp; omega
  rw [List.nil_append] at this
  rw [this]

theorem quaternionInvert_V (q : List ℕ → Fin 4 → ℝ) :
    quaternionInvert (ofV (flTag d v) s 4 q) =
      .ok (ofV (flTag d v) s 4 fun i => (PK.quaternionInvert (.ofVec (q i))).vec) := by
  rw [quaternionInvert, ofV_tag, mul, bin_VC]
  congr 1
  refine ofV_congr fun i hi => ?_
  funext k
  fin_cases k <;> simp [PK.quaternionInvert, Quat.ofVec, Quat.vec]

theorem cat_13 (t : Tag) (f : List ℕ → Fin 1 → ℝ) (g : List ℕ → Fin 3 → ℝ) :
    cat (ofV t s 1 f) (ofV t s 3 g) = .ok (ofV t s 4 fun i => ![f i 0, g i 0, g i 1, g i 2]) := by
  rw [cat_V]
  congr 1
  refine ofV_congr (n := 4) fun i hi => ?_
  funext k
  fin_cases k <;> rfl

theorem cat_31 (t : Tag) (f : List ℕ → Fin 3 → ℝ) (g : List ℕ → Fin 1 → ℝ) :
    cat (ofV t s 3 f) (ofV t s 1 g) = .ok (ofV t s 4 fun i => ![f i 0, f i 1, f i 2, g i 0]) := by
  rw [cat_V]
  congr 1
  refine ofV_congr (n := 4) fun i hi => ?_
  funext k
  fin_cases k <;> rfl

theorem cat_63 (t : Tag) (f : List ℕ → Fin 6 → ℝ) (g : List ℕ → Fin 3 → ℝ) :
    cat (ofV t s 6 f) (ofV t s 3 g) =
      .ok (ofV t s 9 fun i => ![f i 0, f i 1, f i 2, f i 3, f i 4, f i 5, g i 0, g i 1, g i 2]) := by
  rw [cat_V]
  congr 1
  refine ofV_congr (n := 9) fun i hi => ?_
  funext k
  fin_cases k <;> rfl

theorem quaternionApply_V {sq sp r : Shape} (h : bshape sq sp = .ok r) (q : List ℕ → Fin 4 → ℝ) (p : List ℕ → Fin 3 → ℝ) :
    quaternionApply (ofV (flTag d v) sq 4 q) (ofV (flTag d v) sp 3 p) =
      .ok (ofV (flTag d v) r 3 fun i => PK.quaternionApply (.ofVec (q (bidx sq i))) (p (bidx sp i))) := by
  rw [quaternionApply, ofV_shape, List.getLast?_concat]
  dsimp only
  rw [if_neg (by simp), ofV_tag, List.dropLast_concat, full_V, cat_13, ok_bind, quaternionRawMultiply_V d v h, ok_bind,
    quaternionInvert_V, ok_bind, quaternionRawMultiply_V d v (bshape_absorb h).1.1, ok_bind,
    sliceLast_V _ _ _ _ 1 4 (by omega) (l := 3) rfl (by omega)]
  congr 1
  refine ofV_congr fun i hi => ?_
  rw [bidx_valid hi]
  funext k
  fin_cases k <;> simp [PK.quaternionApply, Quat.ofVec, Quat.vec]

theorem xyzwToWxyz_V (q : List ℕ → Fin 4 → ℝ) :
    xyzwToWxyz (ofV (flTag d v) s 4 q) = .ok (ofV (flTag d v) s 4 fun i => (PK.xyzwToWxyz (q i)).vec) := by
  rw [xyzwToWxyz, lastNone_V, ok_bind, sliceLast_V _ _ _ _ 0 3 (by omega) (l := 3) rfl (by omega), ok_bind, cat_13]
  congr 1

theorem wxyzToXyzw_V (q : List ℕ → Fin 4 → ℝ) :
    wxyzToXyzw (ofV (flTag d v) s 4 q) = .ok (ofV (flTag d v) s 4 fun i => PK.wxyzToXyzw (.ofVec (q i))) := by
  rw [wxyzToXyzw, ofV_shape, List.getLastD_concat, sliceLast_V _ _ _ _ 1 4 (by omega) (l := 3) rfl (by omega), ok_bind,
    selectLast_V _ _ _ _ (show 0 < 4 by omega), ok_bind, unsqueeze_S, cat_31]
  congr 1

theorem bin_V1B (f : ℝ → ℝ → ℝ) (t : Tag) {sa sb r : Shape} (h : bshape sa sb = .ok r) (n : ℕ) (a : List ℕ → Fin n → ℝ)
    (b : List ℕ → Fin 1 → ℝ) :
    bin f (ofV t sa n a) (ofV t sb 1 b) = .ok (ofV t r n fun i k => f (a (bidx sa i) k) (b (bidx sb i) 0)) := by
  have hb : bshape (sa ++ [n]) (sb ++ [1]) = .ok (r ++ [n]) := bshape_snoc h (.inr (.inr ⟨rfl, rfl⟩))
  rw [bin_bcast (t := t) (s := sa ++ [n]) (s' := sb ++ [1]) f rfl rfl rfl rfl hb]
  congr 1
  refine eq_ofV rfl rfl fun i k hk hi => ?_
  have hk' : (if n = 1 then 0 else k) = k := by split_ifs <;> omega
  rw [ofFn_get (validIx_snoc.2 ⟨hi, hk⟩), bidx_snoc, bidx_snoc, if_pos rfl, hk', ofV_get (bidx_left h hi) hk,
    ofV_get (bidx_right h hi) Nat.one_pos]
  rfl

theorem axisAndDToPrisMatrix_V {sa sd : Shape} (h : bshape sa sd = .ok sa) (axis : List ℕ → Fin 3 → ℝ) (x : List ℕ → ℝ) :
    axisAndDToPrisMatrix (ofV (flTag d v) sa 3 axis) (ofFn (flTag d v) sd x) =
      .ok (ofM (flTag d v) sa 4 4 fun i r c => PK.axisAndDToPrisMatrix (axis i) (x (bidx sd i)) r c) := by
  rw [axisAndDToPrisMatrix, unsqueeze_S, mul, bin_V1B _ _ h, ok_bind, ofV_tag, ofV_shape, List.dropLast_concat, full_M]
  dsimp only
  rw [setEntry_M _ _ _ _ _ _ _ _ (by omega) (by omega), ok_bind, setEntry_M _ _ _ _ _ _ _ _ (by omega) (by omega), ok_bind,
    setEntry_M _ _ _ _ _ _ _ _ (by omega) (by omega), ok_bind, setEntry_M _ _ _ _ _ _ _ _ (by omega) (by omega), ok_bind,
    setColumn_M]
  congr 1
  refine ofM_congr fun i hi => ?_
  rw [bidx_valid hi]
  funext r c
  fin_cases r <;> fin_cases c <;> simp [PK.axisAndDToPrisMatrix, hom]

theorem axisAndAngleToMatrix33_V {sa st r : Shape} (h : bshape sa st = .ok r) (axis : List ℕ → Fin 3 → ℝ) (x : List ℕ → ℝ) :
    axisAndAngleToMatrix33 (ofV (flTag d v) sa 3 axis) (ofFn (flTag d v) st x) =
      .ok (ofM (flTag d v) r 3 3 fun i k c => PK.axisAndAngleToMatrix33 (axis (bidx sa i)) (x (bidx st i)) k c) := by
  rw [axisAndAngleToMatrix33, map_S, map_S, map_S, unbind_V3, ok_bind, unpack3, ok_bind]
  dsimp only
  have ha := bshape_absorb h
  rw [stackE_eq (d := d) (v := v) (r := r) (by simp [ok_bind, bshape_self, h, ha.2.2]),
    stackE_eq (d := d) (v := v) (r := r) (by simp [ok_bind, bshape_self, h, ha.2.2]),
    stackE_eq (d := d) (v := v) (r := r) (by simp [ok_bind, bshape_self, h, ha.2.2])]
  simp only [List.map_cons, List.map_nil]
  rw [stackLast_S3, ok_bind, stackLast_S3, ok_bind, stackLast_S3, ok_bind, stackRows_V3]
  congr 1
  refine ofM_congr fun i hi => ?_
  funext k c
  fin_cases k <;> fin_cases c <;>
    simp [TE.atB_leaf ha.1.2 hi, TE.atB_leaf ha.2.2 hi, PK.axisAndAngleToMatrix33]

theorem axisAndAngleToMatrix44_V {sa st : Shape} (h : bshape sa st = .ok sa) (axis : List ℕ → Fin 3 → ℝ) (x : List ℕ → ℝ) :
    axisAndAngleToMatrix44 (ofV (flTag d v) sa 3 axis) (ofFn (flTag d v) st x) =
      .ok (ofM (flTag d v) sa 4 4 fun i k c => PK.axisAndAngleToMatrix44 (axis i) (x (bidx st i)) k c) := by
  rw [axisAndAngleToMatrix44, axisAndAngleToMatrix33_V d v h, ok_bind, ofV_tag, ofV_shape, List.dropLast_concat, full_M]
  dsimp only
  rw [setBlock_M, ok_bind, setEntry_M _ _ _ _ _ _ _ _ (by omega) (by omega)]
  congr 1
  refine ofM_congr fun i hi => ?_
  rw [bidx_valid hi]
  funext r c
  fin_cases r <;> fin_cases c <;> simp [PK.axisAndAngleToMatrix44, hom]

theorem sinHalfOver_V1 (a h : List ℕ → Fin 1 → ℝ) :
    sinHalfOver (ofV (flTag d v) s 1 a) (ofV (flTag d v) s 1 h) =
      .ok (ofV (flTag d v) s 1 fun i _ => open Classical in
        if |a i 0| < 1e-6 then 0.5 - (a i 0 * a i 0) / 48 else Real.sin (h i 0) / a i 0) := by
  rw [sinHalfOver, mul, bin_V, ok_bind, map_V, map_V, map_V, div, bin_V, ok_bind, map_V, test_V,
    sel_V (t := flTag d v) (c := eqT (flTag d v)) rfl]
  congr 1
  refine ofV_congr fun i hi => ?_
  funext k
  fin_cases k
  by_cases hh : |a i 0| < 1e-6 <;> simp [hh]

theorem sqrt_sum_norm3 (f : Fin 3 → ℝ) : Real.sqrt (∑ k, f k * f k) = PK.norm3 f := by
  rw [PK.norm3, dot, Fin.sum_univ_three]

theorem axisAngleToQuaternion_V (x : List ℕ → Fin 3 → ℝ) :
    axisAngleToQuaternion (ofV (flTag d v) s 3 x) =
      .ok (ofV (flTag d v) s 4 fun i => (PK.axisAngleToQuaternion (x i)).vec) := by
  rw [axisAngleToQuaternion, norm_V, ok_bind, map_V]
  dsimp only
  rw [sinHalfOver_V1, ok_bind, map_V, mul, bin_V1, ok_bind, cat_13]
  congr 1
  refine ofV_congr fun i hi => ?_
  simp only [sqrt_sum_norm3]
  funext k
  fin_cases k <;> rfl

theorem quaternionToAxisAngle_V (q : List ℕ → Fin 4 → ℝ) :
    quaternionToAxisAngle (ofV (flTag d v) s 4 q) =
      .ok (ofV (flTag d v) s 3 fun i => PK.quaternionToAxisAngle (.ofVec (q i))) := by
  rw [quaternionToAxisAngle, ofV_shape, List.getLastD_concat,
    sliceLast_V _ _ _ _ 1 4 (by omega) (l := 3) rfl (by omega), ok_bind, norm_V, ok_bind,
    sliceLast_V _ _ _ _ 0 1 (by omega) (l := 1) rfl (by omega), ok_bind, atan2T, bin_V, ok_bind, map_V]
  dsimp only
  rw [sinHalfOver_V1, ok_bind, ok_bind, div, bin_V1]
  congr 1
  refine ofV_congr fun i hi => ?_
  simp only [sqrt_sum_norm3]
  have e : (fun k : Fin 3 => q i ⟨1 + k, by omega⟩) = ![q i 1, q i 2, q i 3] := by
    funext k
    fin_cases k <;> rfl
  rw [e]
  funext k
  fin_cases k <;> rfl

theorem axisAngleToMatrix_V (x : List ℕ → Fin 3 → ℝ) :
    axisAngleToMatrix (ofV (flTag d v) s 3 x) = .ok (ofM (flTag d v) s 3 3 fun i r c => PK.axisAngleToMatrix (x i) r c) := by
  rw [axisAngleToMatrix, axisAngleToQuaternion_V, ok_bind, quaternionToMatrix_V]
  rfl

theorem matrixToAxisAngle_M (m : List ℕ → Fin 3 → Fin 3 → ℝ) :
    matrixToAxisAngle (ofM (flTag d v) s 3 3 m) =
      .ok (ofV (flTag d v) s 3 fun i => PK.matrixToAxisAngle (.of (m i))) := by
  rw [matrixToAxisAngle, matrixToQuaternion_M, ok_bind, quaternionToAxisAngle_V]
  rfl

theorem normalize_V (x : List ℕ → Fin 3 → ℝ) :
    normalize (ofV (flTag d v) s 3 x) = .ok (ofV (flTag d v) s 3 fun i => PK.fNormalize (x i)) := by
  rw [normalize, norm_V, ok_bind, map_V, ofV_shape, expand_V1, ok_bind, div, bin_V]
  congr 1
  refine ofV_congr fun i hi => ?_
  simp only [sqrt_sum_norm3]
  rfl

/-- six numbers as two rows -/
def split6 (x : Fin 6 → ℝ) : V3 × V3 := (![x 0, x 1, x 2], ![x 3, x 4, x 5])
/-- two rows as six numbers -/
def join6 (p : V3 × V3) : Fin 6 → ℝ := ![p.1 0, p.1 1, p.1 2, p.2 0, p.2 1, p.2 2]
/-- nine numbers as two rows and a position -/
def split9 (x : Fin 9 → ℝ) : (V3 × V3) × V3 := ((![x 0, x 1, x 2], ![x 3, x 4, x 5]), ![x 6, x 7, x 8])
/-- two rows and a position as nine numbers -/
def join9 (p : (V3 × V3) × V3) : Fin 9 → ℝ :=
  ![p.1.1 0, p.1.1 1, p.1.1 2, p.1.2 0, p.1.2 1, p.1.2 2, p.2 0, p.2 1, p.2 2]

theorem rotation6dToMatrix_V (x : List ℕ → Fin 6 → ℝ) :
    rotation6dToMatrix (ofV (flTag d v) s 6 x) =
      .ok (ofM (flTag d v) s 3 3 fun i r c => PK.rotation6dToMatrix (split6 (x i)) r c) := by
  rw [rotation6dToMatrix, ofV_shape, List.getLastD_concat, sliceLast_V _ _ _ _ 0 3 (by omega) (l := 3) rfl (by omega), ok_bind,
    sliceLast_V _ _ _ _ 3 6 (by omega) (l := 3) rfl (by omega), ok_bind, normalize_V, ok_bind, mul, bin_V, ok_bind,
    sumKeep_V, ok_bind, bin_1V, ok_bind, sub, bin_V, ok_bind, normalize_V, ok_bind, crossT_V, ok_bind, stackRows_V3]
  congr 1
  refine ofM_congr fun i hi => ?_
  have e1 : (fun k : Fin 3 => x i ⟨0 + k, by omega⟩) = ![x i 0, x i 1, x i 2] := by
    funext k
    fin_cases k <;> rfl
  have e2 : (fun k : Fin 3 => x i ⟨3 + k, by omega⟩) = ![x i 3, x i 4, x i 5] := by
    funext k
    fin_cases k <;> rfl
  have e3 : ∀ k : Fin 3, x i ⟨3 + k, by omega⟩ = (![x i 3, x i 4, x i 5] : V3) k := fun k => by fin_cases k <;> rfl
  simp only [e1, e3, Fin.sum_univ_three]
  funext r c
  fin_cases r <;> fin_cases c <;> rfl

theorem matrixToRotation6d_M (m : List ℕ → Fin 3 → Fin 3 → ℝ) :
    matrixToRotation6d (ofM (flTag d v) s 3 3 m) =
      .ok (ofV (flTag d v) s 6 fun i => join6 (PK.matrixToRotation6d (.of (m i)))) := by
  have hd : ((s ++ [3, 3]).dropLast).dropLast = s := by rw [dropLast_two, List.dropLast_concat]
  rw [matrixToRotation6d, sliceRows_M _ _ _ _ _ 2 (by omega), ok_bind, ofM_shape, hd, reshape_M23]
  congr 1
  refine ofV_congr fun i hi => ?_
  funext k
  fin_cases k <;> rfl

theorem rotBlock_M (m : List ℕ → Fin 4 → Fin 4 → ℝ) :
    rotBlock (ofM (flTag d v) s 4 4 m) = .ok (ofM (flTag d v) s 3 3 fun i r c => rotPart (.of (m i)) r c) := by
  rw [rotBlock, sliceRows_M _ _ _ _ _ 3 (by omega), ok_bind, sliceLast_M _ _ _ _ _ 3 (by omega)]
  rfl

theorem posColumn_M (m : List ℕ → Fin 4 → Fin 4 → ℝ) :
    posColumn (ofM (flTag d v) s 4 4 m) = .ok (ofV (flTag d v) s 3 fun i => posPart (.of (m i))) := by
  rw [posColumn, sliceRows_M _ _ _ _ _ 3 (by omega), ok_bind, selectLast_M _ _ _ _ _ (show 3 < 4 by omega)]
  rfl

theorem matrix44ToSe3_9d_M (m : List ℕ → Fin 4 → Fin 4 → ℝ) :
    matrix44ToSe3_9d (ofM (flTag d v) s 4 4 m) =
      .ok (ofV (flTag d v) s 9 fun i => join9 (PK.matrix44ToSe3_9d (.of (m i)))) := by
  rw [matrix44ToSe3_9d, rotBlock_M, ok_bind, matrixToRotation6d_M, ok_bind, posColumn_M, ok_bind, cat_63]
  rfl

theorem se3_9dToMatrix44_V (x : List ℕ → Fin 9 → ℝ) :
    se3_9dToMatrix44 (ofV (flTag d v) s 9 x) =
      .ok (ofM (flTag d v) s 4 4 fun i r c => PK.se3_9dToMatrix44 (split9 (x i)) r c) := by
  have hd : ((s ++ [3, 3]).dropLast).dropLast = s := by rw [dropLast_two, List.dropLast_concat]
  rw [se3_9dToMatrix44, ofV_shape, List.getLastD_concat, sliceLast_V _ _ _ _ 0 6 (by omega) (l := 6) rfl (by omega), ok_bind,
    rotation6dToMatrix_V, ok_bind, sliceLast_V _ _ _ _ 6 9 (by omega) (l := 3) rfl (by omega), ok_bind, ofM_tag, ofM_shape, hd,
    eyes_M, ok_bind, setBlock_M, ok_bind, setColumn_M]
  congr 1
  refine ofM_congr fun i hi => ?_
  have e : split6 (fun k : Fin 6 => x i ⟨0 + k, by omega⟩) = (split9 (x i)).1 := rfl
  simp only [e]
  funext r c
  fin_cases r <;> fin_cases c <;> simp [PK.se3_9dToMatrix44, hom, split9]

theorem matrixToPosRot_M (m : List ℕ → Fin 4 → Fin 4 → ℝ) :
    matrixToPosRot (ofM (flTag d v) s 4 4 m) =
      .ok (ofV (flTag d v) s 3 fun i => (PK.matrixToPosRot (.of (m i))).1,
        ofV (flTag d v) s 4 fun i => (PK.matrixToPosRot (.of (m i))).2) := by
  rw [matrixToPosRot, posColumn_M, ok_bind, rotBlock_M, ok_bind, matrixToQuaternion_M, ok_bind, wxyzToXyzw_V, ok_bind]
  rfl

theorem posRotToMatrix_V (p : List ℕ → Fin 3 → ℝ) (q : List ℕ → Fin 4 → ℝ) :
    posRotToMatrix (ofV (flTag d v) s 3 p) (ofV (flTag d v) s 4 q) =
      .ok (ofM (flTag d v) s 4 4 fun i r c => PK.posRotToMatrix (p i) (q i) r c) := by
  rw [posRotToMatrix, xyzwToWxyz_V, ok_bind, quaternionToMatrix_V, ok_bind, ofV_tag, ofV_shape, List.dropLast_concat, eyes_M,
    ok_bind, setColumn_M, ok_bind, setBlock_M]
  congr 1
  refine ofM_congr fun i hi => ?_
  funext r c
  fin_cases r <;> fin_cases c <;> simp [PK.posRotToMatrix, hom, Quat.ofVec_vec]

theorem setLast_N (t t' : Tag) (n : ℕ) (f : List ℕ → ℕ → ℝ) (k : ℕ) (g : List ℕ → ℝ) (hk : k < n) :
    setLast (ofV t s n fun i c => f i c.val) k (ofFn t' s g) =
      .ok (ofV t s n fun i c => Function.update (f i) k (g i) c.val) := by
  rw [setLast_V _ _ _ _ _ _ _ hk]
  congr 1
  refine ofV_congr fun i hi => ?_
  funext c
  by_cases h : c.val = k
  · subst h
    simp
  · rw [Function.update_of_ne h, Function.update_of_ne fun h' => h (by rw [h'])]

theorem axes_bounds {x : List Char} {fa pa re fr : ℕ} (h : axes2tuple.lookup x = some (fa, pa, re, fr)) :
    ∃ j k, nextAxis (fa + 1 + pa - 1) = some j ∧ nextAxis (fa + 1 - pa) = some k ∧ fa + 1 < 4 ∧ j + 1 < 4 ∧ k + 1 < 4 := by
  have hall : ∀ p ∈ axes2tuple, ∃ j < 3, ∃ k < 3, nextAxis (p.2.1 + 1 + p.2.2.1 - 1) = some j ∧
      nextAxis (p.2.1 + 1 - p.2.2.1) = some k ∧ p.2.1 + 1 < 4 := by decide
  have hmem : ∀ l : List (List Char × (ℕ × ℕ × ℕ × ℕ)), l.lookup x = some (fa, pa, re, fr) → (x, (fa, pa, re, fr)) ∈ l := by
    intro l
    induction l with
    | nil => intro h; cases h
    | cons p l ih =>
      intro h
      rw [List.lookup] at h
      by_cases hx : x == p.1
      · rw [hx] at h
        obtain rfl : x = p.1 := by simpa using hx
        have : p.2 = (fa, pa, re, fr) := by simpa using h
        rw [← this]
        simp
      · rw [Bool.not_eq_true] at hx
        rw [hx] at h
        exact List.mem_cons_of_mem _ (ih h)
  obtain ⟨j, hj, k, hk, h1, h2, h3⟩ := hall _ (hmem _ h)
  exact ⟨j, k, h1, h2, h3, by omega, by omega⟩

theorem quaternionFromEuler_V (e : List ℕ → Fin 3 → ℝ) {axes : List Char} {fa pa re fr : ℕ}
    (h : axes2tuple.lookup (axes.map Char.toLower) = some (fa, pa, re, fr)) :
    ∃ f g, quaternionFromEuler (ofV (flTag d v) s 3 e) axes = .ok (ofV (flTag d v) s 4 f, ofV (flTag d v) s 3 g) ∧
      ∀ i, ValidIx i s → PK.quaternionFromEuler (e i) axes = .ok (.ofVec (f i), g i) := by
  obtain ⟨j, k, h1, h2, hfa, hj, hk⟩ := axes_bounds h
  rw [quaternionFromEuler, h]
  dsimp only
  rw [unbind_V3, ok_bind, unpack3, ok_bind]
  dsimp only
  rw [h1, h2]
  dsimp only
  have hz : full (flTag d v) (s ++ [4]) 0 = ofV (flTag d v) s 4 fun i c => (fun (_ : List ℕ) (_ : ℕ) => (0 : ℝ)) i c.val := full_V _ _ _ _
  by_cases hf : fr = 0 <;> by_cases hp : pa = 0 <;> by_cases hr : re = 0
  all_goals
    simp only [hf, hp, hr, ne_eq, not_true_eq_false, not_false_eq_true, if_true, if_false, map_S, pure_eq, ok_bind, ofV_tag, ofV_shape, List.dropLast_concat]
    rw [setLast_V _ _ _ _ _ 0 _ (by omega), ok_bind]
    first
    | rw [setLast_V _ _ _ _ _ 1 _ (by omega), ok_bind, setLast_V _ _ _ _ _ 2 _ (by omega), ok_bind]
    | rw [setLast_V _ _ _ _ _ 2 _ (by omega), ok_bind]
    rw [hz, TE.eval_eq (d := d) (v := v) (r := s) (by simp) (by simp [ok_bind, bshape_self]), ok_bind,
      setLast_N _ _ _ _ (fun _ _ => 0) 0 _ (by omega), ok_bind,
      TE.eval_eq (d := d) (v := v) (r := s) (by simp) (by simp [ok_bind, bshape_self]), ok_bind,
      setLast_N _ _ _ _ _ (fa + 1) _ (by omega), ok_bind,
      TE.eval_eq (d := d) (v := v) (r := s) (by simp) (by simp [ok_bind, bshape_self]), ok_bind,
      setLast_N _ _ _ _ _ (j + 1) _ (by omega), ok_bind,
      TE.eval_eq (d := d) (v := v) (r := s) (by simp) (by simp [ok_bind, bshape_self]), ok_bind,
      setLast_N _ _ _ _ _ (k + 1) _ (by omega), ok_bind]
    first
    | rw [selectLast_V _ _ _ _ hj, ok_bind, map_S, setLast_N _ _ _ _ _ (j + 1) _ (by omega), ok_bind]
    | skip
    refine ⟨_, _, rfl, fun i hi => ?_⟩
    rw [PK.quaternionFromEuler, h]
    dsimp only
    rw [h1, h2]
    dsimp only
    simp only [hf, hp, hr, ne_eq, not_true_eq_false, not_false_eq_true, if_true, if_false, Quat.ofVec, TE.atB_mul,
      TE.atB_add, TE.atB_sub, TE.atB_leaf_same hi]
    congr 1
    refine Prod.ext rfl ?_
    funext c
    fin_cases c <;> simp

end Tn
end PK
