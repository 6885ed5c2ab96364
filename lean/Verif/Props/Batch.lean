import Verif.Lemmas.TensorRot

/-!
# C121: the conversions act on every element of a batch of any shape

`HasVec q s n t`: a tensor of `n`-vectors with batch shape `s` (any number of dimensions, also none, also of size 0),
dtype and device `t`.  The theorems give, for such inputs, the shape, dtype and device of the result, and every element of
the result as the function of the elements of the inputs at the same batch index.
-/

namespace PK
open Tn

/-- A tensor of shape `s + (n,)` -/
def HasVec (q : Tn ℝ) (s : Shape) (n : ℕ) (t : Tag) : Prop := q.shape = s ++ [n] ∧ q.tag = t
/-- A tensor of shape `s + (n, m)` -/
def HasMat (q : Tn ℝ) (s : Shape) (n m : ℕ) (t : Tag) : Prop := q.shape = s ++ [n, m] ∧ q.tag = t
/-- A tensor of shape `s` -/
def HasNum (q : Tn ℝ) (s : Shape) (t : Tag) : Prop := q.shape = s ∧ q.tag = t

/-- The vector at a batch index -/
def vecAt (n : ℕ) (q : Tn ℝ) (i : List ℕ) : Fin n → ℝ := fun k => q.get (i ++ [k.val])
/-- The quaternion (real part first) at a batch index -/
def quatAt (q : Tn ℝ) (i : List ℕ) : Quat := ⟨q.get (i ++ [0]), q.get (i ++ [1]), q.get (i ++ [2]), q.get (i ++ [3])⟩
/-- The matrix at a batch index -/
def matAt (n m : ℕ) (q : Tn ℝ) (i : List ℕ) : Matrix (Fin n) (Fin m) ℝ := .of fun r c => q.get (i ++ [r.val, c.val])

section
variable {d : DType} {v : Device} {s : Shape}

theorem HasVec.eq {q : Tn ℝ} {n : ℕ} {t : Tag} (h : HasVec q s n t) : q = ofV t s n (vecAt n q) :=
  eq_ofV h.1 h.2 fun _ _ _ _ => rfl

theorem HasMat.eq {q : Tn ℝ} {n m : ℕ} {t : Tag} (h : HasMat q s n m t) : q = ofM t s n m (matAt n m q) :=
  eq_ofM h.1 h.2 fun _ _ _ _ _ _ => rfl

theorem HasNum.eq {q : Tn ℝ} {t : Tag} (h : HasNum q s t) : q = ofFn t s q.get := eq_ofS h.1 h.2 fun _ _ => rfl

theorem hasVec_ofV (t : Tag) (n : ℕ) (f : List ℕ → Fin n → ℝ) : HasVec (ofV t s n f) s n t := ⟨rfl, rfl⟩
theorem hasMat_ofM (t : Tag) (n m : ℕ) (f : List ℕ → Fin n → Fin m → ℝ) : HasMat (ofM t s n m f) s n m t := ⟨rfl, rfl⟩

theorem vecAt_ofV {t : Tag} {n : ℕ} {f : List ℕ → Fin n → ℝ} {i : List ℕ} (hi : ValidIx i s) :
    vecAt n (ofV t s n f) i = f i := by
  funext k
  exact ofV_get hi k.isLt

theorem quatAt_ofV {t : Tag} {f : List ℕ → Quat} {i : List ℕ} (hi : ValidIx i s) :
    quatAt (ofV t s 4 fun i => (f i).vec) i = f i := by
  rw [quatAt, ofV_get hi (by omega), ofV_get hi (by omega), ofV_get hi (by omega), ofV_get hi (by omega)]
  rfl

theorem matAt_ofM {t : Tag} {n m : ℕ} {f : List ℕ → Fin n → Fin m → ℝ} {i : List ℕ} (hi : ValidIx i s) :
    matAt n m (ofM t s n m f) i = .of (f i) := by
  ext r c
  exact ofM_get (t := t) hi r.isLt c.isLt

theorem ofVec_vecAt (q : Tn ℝ) (i : List ℕ) : Quat.ofVec (vecAt 4 q i) = quatAt q i := rfl
theorem of_matAt {n m : ℕ} (q : Tn ℝ) (i : List ℕ) : Matrix.of (matAt n m q i) = matAt n m q i := rfl

theorem quatAt_vec {t : Tag} {f : List ℕ → Fin 4 → ℝ} {i : List ℕ} (hi : ValidIx i s) :
    quatAt (ofV t s 4 f) i = .ofVec (f i) := by
  rw [quatAt, ofV_get hi (by omega), ofV_get hi (by omega), ofV_get hi (by omega), ofV_get hi (by omega)]
  rfl

/-! ## One argument -/

theorem C121_quaternion_to_matrix {q : Tn ℝ} (h : HasVec q s 4 (flTag d v)) :
    ∃ r, Tn.quaternionToMatrix q = .ok r ∧ HasMat r s 3 3 (flTag d v) ∧
      ∀ i, ValidIx i s → matAt 3 3 r i = quaternionToMatrix (quatAt q i) :=
  ⟨_, (congrArg _ h.eq).trans (quaternionToMatrix_V d v s _), hasMat_ofM _ _ _ _, fun i hi => by rw [matAt_ofM hi]; rfl⟩

theorem C121_matrix_to_quaternion {m : Tn ℝ} (h : HasMat m s 3 3 (flTag d v)) :
    ∃ r, Tn.matrixToQuaternion m = .ok r ∧ HasVec r s 4 (flTag d v) ∧
      ∀ i, ValidIx i s → quatAt r i = matrixToQuaternion (matAt 3 3 m i) :=
  ⟨_, (congrArg _ h.eq).trans (matrixToQuaternion_M d v s _), hasVec_ofV _ _ _, fun i hi => by rw [quatAt_ofV hi]; rfl⟩

theorem C121_axis_angle_to_quaternion {x : Tn ℝ} (h : HasVec x s 3 (flTag d v)) :
    ∃ r, Tn.axisAngleToQuaternion x = .ok r ∧ HasVec r s 4 (flTag d v) ∧
      ∀ i, ValidIx i s → quatAt r i = axisAngleToQuaternion (vecAt 3 x i) :=
  ⟨_, (congrArg _ h.eq).trans (axisAngleToQuaternion_V d v s _), hasVec_ofV _ _ _, fun i hi => by rw [quatAt_ofV hi]⟩

theorem C121_quaternion_to_axis_angle {q : Tn ℝ} (h : HasVec q s 4 (flTag d v)) :
    ∃ r, Tn.quaternionToAxisAngle q = .ok r ∧ HasVec r s 3 (flTag d v) ∧
      ∀ i, ValidIx i s → vecAt 3 r i = quaternionToAxisAngle (quatAt q i) :=
  ⟨_, (congrArg _ h.eq).trans (quaternionToAxisAngle_V d v s _), hasVec_ofV _ _ _, fun i hi => by rw [vecAt_ofV hi]; rfl⟩

theorem C121_axis_angle_to_matrix {x : Tn ℝ} (h : HasVec x s 3 (flTag d v)) :
    ∃ r, Tn.axisAngleToMatrix x = .ok r ∧ HasMat r s 3 3 (flTag d v) ∧
      ∀ i, ValidIx i s → matAt 3 3 r i = axisAngleToMatrix (vecAt 3 x i) :=
  ⟨_, (congrArg _ h.eq).trans (axisAngleToMatrix_V d v s _), hasMat_ofM _ _ _ _, fun i hi => by rw [matAt_ofM hi]; rfl⟩

theorem C121_matrix_to_axis_angle {m : Tn ℝ} (h : HasMat m s 3 3 (flTag d v)) :
    ∃ r, Tn.matrixToAxisAngle m = .ok r ∧ HasVec r s 3 (flTag d v) ∧
      ∀ i, ValidIx i s → vecAt 3 r i = matrixToAxisAngle (matAt 3 3 m i) :=
  ⟨_, (congrArg _ h.eq).trans (matrixToAxisAngle_M d v s _), hasVec_ofV _ _ _, fun i hi => by rw [vecAt_ofV hi]; rfl⟩

/-- Three angles and a convention: the conversion accepts the batch if it accepts the convention. -/
theorem C121_euler_angles_to_matrix {e : Tn ℝ} (h : HasVec e s 3 (flTag d v)) (conv : List Char) :
    (∀ abc, parseConvention conv = .ok abc → ∃ r, Tn.eulerAnglesToMatrix e conv = .ok r ∧ HasMat r s 3 3 (flTag d v) ∧
      ∀ i, ValidIx i s → eulerAnglesToMatrix (vecAt 3 e i) conv = .ok (matAt 3 3 r i)) ∧
    (∀ er, parseConvention conv = .error er → Tn.eulerAnglesToMatrix e conv = .error er) := by
  have key := (congrArg (Tn.eulerAnglesToMatrix · conv) h.eq).trans (eulerAnglesToMatrix_V d v s (vecAt 3 e) conv)
  constructor
  · rintro ⟨a, b, c⟩ hp
    rw [hp] at key
    refine ⟨_, key, hasMat_ofM _ _ _ _, fun i hi => ?_⟩
    rw [eulerAnglesToMatrix, hp, matAt_ofM hi]
    rfl
  · intro er hp
    rw [hp] at key
    exact key

theorem C121_matrix_to_euler_angles {m : Tn ℝ} (h : HasMat m s 3 3 (flTag d v)) (conv : List Char) :
    (∀ abc, parseConvention conv = .ok abc → ∃ r, Tn.matrixToEulerAngles m conv = .ok r ∧ HasVec r s 3 (flTag d v) ∧
      ∀ i, ValidIx i s → matrixToEulerAngles (matAt 3 3 m i) conv = .ok (vecAt 3 r i)) ∧
    (∀ er, parseConvention conv = .error er → Tn.matrixToEulerAngles m conv = .error er) := by
  obtain ⟨f, h1, h2⟩ := matrixToEulerAngles_M d v s (matAt 3 3 m) conv
  have key := (congrArg (Tn.matrixToEulerAngles · conv) h.eq).trans h1
  constructor
  · rintro ⟨a, b, c⟩ hp
    rw [hp] at key
    refine ⟨_, key, hasVec_ofV _ _ _, fun i hi => ?_⟩
    rw [vecAt_ofV hi]
    have := h2 i
    rw [hp] at this
    exact this
  · intro er hp
    rw [hp] at key
    exact key

theorem C121_quaternion_from_euler {e : Tn ℝ} (h : HasVec e s 3 (flTag d v)) (axes : List Char) :
    (∀ x, axes2tuple.lookup (axes.map Char.toLower) = some x → ∃ r e', Tn.quaternionFromEuler e axes = .ok (r, e') ∧
      HasVec r s 4 (flTag d v) ∧ HasVec e' s 3 (flTag d v) ∧
      ∀ i, ValidIx i s → quaternionFromEuler (vecAt 3 e i) axes = .ok (quatAt r i, vecAt 3 e' i)) ∧
    (axes2tuple.lookup (axes.map Char.toLower) = none → Tn.quaternionFromEuler e axes = .error .keyError) := by
  constructor
  · rintro ⟨fa, pa, re, fr⟩ hx
    obtain ⟨f, g, h1, h2⟩ := quaternionFromEuler_V d v s (vecAt 3 e) hx
    refine ⟨_, _, (congrArg (Tn.quaternionFromEuler · axes) h.eq).trans h1, hasVec_ofV _ _ _, hasVec_ofV _ _ _, fun i hi => ?_⟩
    rw [h2 i hi, quatAt_vec hi, vecAt_ofV hi]
  · intro hx
    rw [Tn.quaternionFromEuler, hx]

theorem C121_standardize_quaternion {q : Tn ℝ} (h : HasVec q s 4 (flTag d v)) :
    ∃ r, Tn.standardizeQuaternion q = .ok r ∧ HasVec r s 4 (flTag d v) ∧
      ∀ i, ValidIx i s → quatAt r i = standardizeQuaternion (quatAt q i) :=
  ⟨_, (congrArg _ h.eq).trans (standardizeQuaternion_V d v s _), hasVec_ofV _ _ _, fun i hi => by rw [quatAt_ofV hi]; rfl⟩

theorem C121_quaternion_invert {q : Tn ℝ} (h : HasVec q s 4 (flTag d v)) :
    ∃ r, Tn.quaternionInvert q = .ok r ∧ HasVec r s 4 (flTag d v) ∧
      ∀ i, ValidIx i s → quatAt r i = quaternionInvert (quatAt q i) :=
  ⟨_, (congrArg _ h.eq).trans (quaternionInvert_V d v s _), hasVec_ofV _ _ _, fun i hi => by rw [quatAt_ofV hi]; rfl⟩

theorem C121_random_quaternions {o : Tn ℝ} {n : ℕ} (h : HasVec o [n] 4 (flTag d v)) :
    ∃ r, Tn.randomQuaternions o = .ok r ∧ HasVec r [n] 4 (flTag d v) ∧
      ∀ i, ValidIx i [n] → quatAt r i = randomQuaternion (quatAt o i) :=
  ⟨_, (congrArg _ h.eq).trans (randomQuaternions_V d v [n] _), hasVec_ofV _ _ _, fun i hi => by rw [quatAt_ofV hi]; rfl⟩

/-- Both orders of the components: `xyzw_to_wxyz` and `wxyz_to_xyzw`. -/
theorem C121_component_order {q : Tn ℝ} (h : HasVec q s 4 (flTag d v)) :
    (∃ r, Tn.xyzwToWxyz q = .ok r ∧ HasVec r s 4 (flTag d v) ∧
      ∀ i, ValidIx i s → quatAt r i = xyzwToWxyz (vecAt 4 q i)) ∧
    (∃ r, Tn.wxyzToXyzw q = .ok r ∧ HasVec r s 4 (flTag d v) ∧
      ∀ i, ValidIx i s → vecAt 4 r i = wxyzToXyzw (quatAt q i)) :=
  ⟨⟨_, (congrArg _ h.eq).trans (xyzwToWxyz_V d v s _), hasVec_ofV _ _ _, fun i hi => by rw [quatAt_ofV hi]⟩,
    ⟨_, (congrArg _ h.eq).trans (wxyzToXyzw_V d v s _), hasVec_ofV _ _ _, fun i hi => by rw [vecAt_ofV hi]; rfl⟩⟩

/-- The six-dimensional representation; `split6`, `join6` are the two halves of the six numbers. -/
theorem C121_rotation_6d {x m : Tn ℝ} (hx : HasVec x s 6 (flTag d v)) (hm : HasMat m s 3 3 (flTag d v)) :
    (∃ r, Tn.rotation6dToMatrix x = .ok r ∧ HasMat r s 3 3 (flTag d v) ∧
      ∀ i, ValidIx i s → matAt 3 3 r i = rotation6dToMatrix (split6 (vecAt 6 x i))) ∧
    (∃ r, Tn.matrixToRotation6d m = .ok r ∧ HasVec r s 6 (flTag d v) ∧
      ∀ i, ValidIx i s → vecAt 6 r i = join6 (matrixToRotation6d (matAt 3 3 m i))) :=
  ⟨⟨_, (congrArg _ hx.eq).trans (rotation6dToMatrix_V d v s _), hasMat_ofM _ _ _ _, fun i hi => by rw [matAt_ofM hi]; rfl⟩,
    ⟨_, (congrArg _ hm.eq).trans (matrixToRotation6d_M d v s _), hasVec_ofV _ _ _, fun i hi => by rw [vecAt_ofV hi]; rfl⟩⟩

theorem C121_se3_9d {x m : Tn ℝ} (hx : HasVec x s 9 (flTag d v)) (hm : HasMat m s 4 4 (flTag d v)) :
    (∃ r, Tn.se3_9dToMatrix44 x = .ok r ∧ HasMat r s 4 4 (flTag d v) ∧
      ∀ i, ValidIx i s → matAt 4 4 r i = se3_9dToMatrix44 (split9 (vecAt 9 x i))) ∧
    (∃ r, Tn.matrix44ToSe3_9d m = .ok r ∧ HasVec r s 9 (flTag d v) ∧
      ∀ i, ValidIx i s → vecAt 9 r i = join9 (matrix44ToSe3_9d (matAt 4 4 m i))) :=
  ⟨⟨_, (congrArg _ hx.eq).trans (se3_9dToMatrix44_V d v s _), hasMat_ofM _ _ _ _, fun i hi => by rw [matAt_ofM hi]; rfl⟩,
    ⟨_, (congrArg _ hm.eq).trans (matrix44ToSe3_9d_M d v s _), hasVec_ofV _ _ _, fun i hi => by rw [vecAt_ofV hi]; rfl⟩⟩

theorem C121_pos_rot {p q m : Tn ℝ} (hp : HasVec p s 3 (flTag d v)) (hq : HasVec q s 4 (flTag d v))
    (hm : HasMat m s 4 4 (flTag d v)) :
    (∃ r, Tn.posRotToMatrix p q = .ok r ∧ HasMat r s 4 4 (flTag d v) ∧
      ∀ i, ValidIx i s → matAt 4 4 r i = posRotToMatrix (vecAt 3 p i) (vecAt 4 q i)) ∧
    (∃ p' q', Tn.matrixToPosRot m = .ok (p', q') ∧ HasVec p' s 3 (flTag d v) ∧ HasVec q' s 4 (flTag d v) ∧
      ∀ i, ValidIx i s → (vecAt 3 p' i, vecAt 4 q' i) = matrixToPosRot (matAt 4 4 m i)) :=
  ⟨⟨_, (congrArg₂ _ hp.eq hq.eq).trans (posRotToMatrix_V d v s _ _), hasMat_ofM _ _ _ _,
      fun i hi => by rw [matAt_ofM hi]; rfl⟩,
    ⟨_, _, (congrArg _ hm.eq).trans (matrixToPosRot_M d v s _), hasVec_ofV _ _ _, hasVec_ofV _ _ _,
      fun i hi => by rw [vecAt_ofV hi, vecAt_ofV hi]; rfl⟩⟩

/-! ## Two arguments that are broadcast -/

theorem C121_quaternion_multiply {a b : Tn ℝ} {sa sb r : Shape} (ha : HasVec a sa 4 (flTag d v))
    (hb : HasVec b sb 4 (flTag d v)) (h : bshape sa sb = .ok r) :
    (∃ c, Tn.quaternionRawMultiply a b = .ok c ∧ HasVec c r 4 (flTag d v) ∧
      ∀ i, ValidIx i r → quatAt c i = quaternionRawMultiply (quatAt a (bidx sa i)) (quatAt b (bidx sb i))) ∧
    (∃ c, Tn.quaternionMultiply a b = .ok c ∧ HasVec c r 4 (flTag d v) ∧
      ∀ i, ValidIx i r → quatAt c i = quaternionMultiply (quatAt a (bidx sa i)) (quatAt b (bidx sb i))) :=
  ⟨⟨_, (congrArg₂ _ ha.eq hb.eq).trans (quaternionRawMultiply_V d v h _ _), hasVec_ofV _ _ _,
      fun i hi => by rw [quatAt_ofV hi]; rfl⟩,
    ⟨_, (congrArg₂ _ ha.eq hb.eq).trans (quaternionMultiply_V d v h _ _), hasVec_ofV _ _ _,
      fun i hi => by rw [quatAt_ofV hi]; rfl⟩⟩

theorem C121_quaternion_apply {q p : Tn ℝ} {sq sp r : Shape} (hq : HasVec q sq 4 (flTag d v))
    (hp : HasVec p sp 3 (flTag d v)) (h : bshape sq sp = .ok r) :
    ∃ c, Tn.quaternionApply q p = .ok c ∧ HasVec c r 3 (flTag d v) ∧
      ∀ i, ValidIx i r → vecAt 3 c i = quaternionApply (quatAt q (bidx sq i)) (vecAt 3 p (bidx sp i)) :=
  ⟨_, (congrArg₂ _ hq.eq hp.eq).trans (quaternionApply_V d v h _ _), hasVec_ofV _ _ _,
    fun i hi => by rw [vecAt_ofV hi]; rfl⟩

theorem C121_axis_and_angle_to_matrix_33 {a th : Tn ℝ} {sa st r : Shape} (ha : HasVec a sa 3 (flTag d v))
    (ht : HasNum th st (flTag d v)) (h : bshape sa st = .ok r) :
    ∃ c, Tn.axisAndAngleToMatrix33 a th = .ok c ∧ HasMat c r 3 3 (flTag d v) ∧
      ∀ i, ValidIx i r → matAt 3 3 c i = axisAndAngleToMatrix33 (vecAt 3 a (bidx sa i)) (th.get (bidx st i)) :=
  ⟨_, (congrArg₂ _ ha.eq ht.eq).trans (axisAndAngleToMatrix33_V d v h _ _), hasMat_ofM _ _ _ _,
    fun i hi => by rw [matAt_ofM hi]; rfl⟩

/-- The two functions that forward kinematics calls, for numbers that can be broadcast to the batch of the axes. -/
theorem C121_joint_matrices {a th : Tn ℝ} {sa st : Shape} (ha : HasVec a sa 3 (flTag d v))
    (ht : HasNum th st (flTag d v)) (h : bshape sa st = .ok sa) :
    (∃ c, Tn.axisAndAngleToMatrix44 a th = .ok c ∧ HasMat c sa 4 4 (flTag d v) ∧
      ∀ i, ValidIx i sa → matAt 4 4 c i = axisAndAngleToMatrix44 (vecAt 3 a i) (th.get (bidx st i))) ∧
    (∃ c, Tn.axisAndDToPrisMatrix a th = .ok c ∧ HasMat c sa 4 4 (flTag d v) ∧
      ∀ i, ValidIx i sa → matAt 4 4 c i = axisAndDToPrisMatrix (vecAt 3 a i) (th.get (bidx st i))) :=
  ⟨⟨_, (congrArg₂ _ ha.eq ht.eq).trans (axisAndAngleToMatrix44_V d v h _ _), hasMat_ofM _ _ _ _,
      fun i hi => by rw [matAt_ofM hi]; rfl⟩,
    ⟨_, (congrArg₂ _ ha.eq ht.eq).trans (axisAndDToPrisMatrix_V d v h _ _), hasMat_ofM _ _ _ _,
      fun i hi => by rw [matAt_ofM hi]; rfl⟩⟩

/-- Equal shapes are broadcast to themselves, and every index to itself: the two-argument theorems cover the case of one
element per element. -/
theorem C121_same_shape (i : List ℕ) (hi : ValidIx i s) : bshape s s = .ok s ∧ bidx s i = i :=
  ⟨bshape_self s, bidx_valid hi⟩

/-! ## Inputs that are no vectors of the right size -/

theorem C121_rejects {q : Tn ℝ} {n m : ℕ} {t : Tag} :
    (HasVec q s n t → n ≠ 4 → Tn.quaternionToMatrix q = .error .valueError ∧
      ∀ b, Tn.quaternionRawMultiply q b = .error .valueError ∧ Tn.quaternionMultiply q b = .error .valueError) ∧
    (HasVec q s n t → n ≠ 3 → (∀ c, Tn.eulerAnglesToMatrix q c = .error .valueError) ∧
      (∀ p, Tn.quaternionApply p q = .error .valueError) ∧ ∀ th, Tn.axisAndAngleToMatrix33 q th = .error .valueError) ∧
    (HasMat q s n m t → ¬(n = 3 ∧ m = 3) → Tn.matrixToQuaternion q = .error .valueError) := by
  have hlen : ∀ (l : List (Tn ℝ)), l.length ≠ 4 → unpack4 l = .error .valueError := by
    intro l hl
    match l with
    | [] | [_] | [_, _] | [_, _, _] | _ :: _ :: _ :: _ :: _ :: _ => rfl
    | [_, _, _, _] => exact absurd rfl hl
  have hlen3 : ∀ (l : List (Tn ℝ)), l.length ≠ 3 → unpack3 l = .error .valueError := by
    intro l hl
    match l with
    | [] | [_] | [_, _] | _ :: _ :: _ :: _ :: _ => rfl
    | [_, _, _] => exact absurd rfl hl
  have hu : HasVec q s n t → ∃ l, unbind q = .ok l ∧ l.length = n := by
    intro h
    rw [unbind, h.1, List.getLast?_concat]
    exact ⟨_, rfl, by simp⟩
  refine ⟨fun h hn => ?_, fun h hn => ?_, fun h hn => ?_⟩
  · obtain ⟨l, hl, hl'⟩ := hu h
    have e := hlen l (by omega)
    refine ⟨?_, fun b => ?_⟩
    · rw [Tn.quaternionToMatrix, hl, ok_bind, e, error_bind]
    · have e2 : Tn.quaternionRawMultiply q b = .error .valueError := by
        rw [Tn.quaternionRawMultiply, hl, ok_bind, e, error_bind]
      exact ⟨e2, by rw [Tn.quaternionMultiply, e2, error_bind]⟩
  · obtain ⟨l, hl, hl'⟩ := hu h
    have e := hlen3 l (by omega)
    refine ⟨fun c => ?_, fun p => ?_, fun th => ?_⟩
    · rw [Tn.eulerAnglesToMatrix, h.1, List.getLast?_concat, if_pos (by simpa using hn)]
    · rw [Tn.quaternionApply, h.1, List.getLast?_concat]
      exact if_pos hn
    · rw [Tn.axisAndAngleToMatrix33, hl, ok_bind, e, error_bind]
  · rw [Tn.matrixToQuaternion, h.1, shape_rev2]
    exact if_neg hn

end

/-! ## Examples -/

/-- quaternions of shape `(2, 1, 4)` in single precision -/
noncomputable def exQuats : Tn ℝ := ofFn (flTag .f32 cpu) [2, 1, 4] fun i => if i.getLastD 0 = i.headD 0 then 1 else 0
/-- points of shape `(3, 3)` -/
noncomputable def exPoints : Tn ℝ := ofFn (flTag .f32 cpu) [3, 3] fun i => i.headD 0 + 2 * i.getLastD 0

/-- Two quaternions turn three points: a batch of shape `(2, 3)`.  The second quaternion is a half turn about `x`; the
point with index 2 is `(2, 4, 6)`. -/
example : ∃ c, Tn.quaternionApply exQuats exPoints = .ok c ∧ c.shape = [2, 3, 3] ∧ c.tag = flTag .f32 cpu ∧
    vecAt 3 c [1, 2] = ![2, -4, -6] := by
  have hq : HasVec exQuats [2, 1] 4 (flTag .f32 cpu) := ⟨rfl, rfl⟩
  have hp : HasVec exPoints [3] 3 (flTag .f32 cpu) := ⟨rfl, rfl⟩
  have hb : bshape [2, 1] [3] = .ok [2, 3] := by decide
  obtain ⟨c, h1, h2, h3⟩ := C121_quaternion_apply hq hp hb
  refine ⟨c, h1, h2.1, h2.2, ?_⟩
  rw [h3 [1, 2] (.cons (by omega) (.cons (by omega) .nil))]
  have e1 : quatAt exQuats (bidx [2, 1] [1, 2]) = ⟨0, 1, 0, 0⟩ := by
    have : bidx [2, 1] [1, 2] = [1, 0] := by decide
    rw [this, quatAt, exQuats]
    have hv : ∀ k, k < 4 → ValidIx ([1, 0] ++ [k]) [2, 1, 4] := fun k hk =>
      .cons (by omega) (.cons (by omega) (.cons (by omega) .nil))
    rw [ofFn_get (hv 0 (by omega)), ofFn_get (hv 1 (by omega)), ofFn_get (hv 2 (by omega)), ofFn_get (hv 3 (by omega))]
    simp
  have e2 : vecAt 3 exPoints (bidx [3] [1, 2]) = ![2, 4, 6] := by
    have : bidx [3] [1, 2] = [2] := by decide
    rw [this]
    funext k
    have hv : ValidIx ([2] ++ [k.val]) [3, 3] := .cons (by omega) (.cons k.isLt .nil)
    rw [vecAt, exPoints, ofFn_get hv]
    fin_cases k <;> simp <;> norm_num
  rw [e1, e2]
  funext k
  fin_cases k <;> simp [quaternionApply, quaternionRawMultiply, quaternionInvert]

/-- An empty batch gives an empty batch of matrices. -/
example : ∃ r, Tn.quaternionToMatrix (ofFn (flTag .f64 cpu) [0, 4] fun _ => 0) = .ok r ∧ r.shape = [0, 3, 3] := by
  obtain ⟨r, h1, h2, _⟩ := C121_quaternion_to_matrix (q := ofFn (flTag .f64 cpu) [0, 4] fun _ => 0) (s := [0]) (d := .f64)
    (v := cpu) ⟨rfl, rfl⟩
  exact ⟨r, h1, h2.1⟩

/-- No batch dimension at all: one matrix. -/
example : ∃ r, Tn.matrixToQuaternion (ofFn (flTag .f64 cpu) [3, 3] fun i => if i[0]? = i[1]? then 1 else 0) = .ok r ∧
    r.shape = [4] := by
  obtain ⟨r, h1, h2, _⟩ := C121_matrix_to_quaternion (s := []) (d := .f64) (v := cpu)
    (m := ofFn (flTag .f64 cpu) [3, 3] fun i => if i[0]? = i[1]? then 1 else 0) ⟨rfl, rfl⟩
  exact ⟨r, h1, h2.1⟩

/-- One axis and two angles: `axis_and_angle_to_matrix_33` returns two matrices, `axis_and_angle_to_matrix_44` allocates
one and raises. -/
example (a th : Tn ℝ) (ha : HasVec a [] 3 (flTag .f32 cpu)) (ht : HasNum th [2] (flTag .f32 cpu)) :
    (∃ c, Tn.axisAndAngleToMatrix33 a th = .ok c ∧ c.shape = [2, 3, 3]) ∧
      Tn.axisAndAngleToMatrix44 a th = .error .runtimeError := by
  obtain ⟨c, h1, h2, _⟩ := C121_axis_and_angle_to_matrix_33 ha ht (bshape_nil_left [2])
  refine ⟨⟨c, h1, h2.1⟩, ?_⟩
  have hs : (full a.tag (a.shape.dropLast ++ [4, 4]) 0).shape = [4, 4] := by rw [ha.1]; rfl
  rw [Tn.axisAndAngleToMatrix44, h1, ok_bind]
  have e : setBlock (full a.tag (a.shape.dropLast ++ [4, 4]) 0) 3 3 c = .error .runtimeError := by
    rw [setBlock, hs]
    simp only [List.reverse_cons, List.reverse_nil, List.nil_append, List.cons_append]
    rw [if_pos (by omega), valueFor, h2.1]
    simp [error_bind]
  dsimp only
  rw [e, error_bind]

/-- Shapes that cannot be broadcast are refused. -/
example : bshape [2] [3] = .error .runtimeError := by decide

end PK
