import Verif.Model.TensorLoad
import Verif.Props.BatchT3Build
import Verif.Props.Euler
import Verif.Spec.Urdf
import Verif.Spec.Sdf

/-!
# C125, C126: which numbers keep double precision
-/

namespace PK
open Tn Spec Matrix

/-- The translation of a homogeneous matrix -/
def translOf (M : M4) : V3 := fun k => M k.castSucc 3

theorem translOf_mkHom {R : M3} {p : V3} : translOf (mkHom R p) = p := by
  funext k
  fin_cases k <;> simp [translOf, mkHom]

theorem digits_le : 2 ^ digits .f32 ≤ (2 : ℤ) ^ digits .f64 := by norm_num [digits]

/-- Every number of single precision is one of double precision. -/
theorem floats_mono {x : ℝ} (h : x ∈ floats .f32) : x ∈ floats .f64 := by
  obtain ⟨m, e, h1, h2⟩ := h
  exact ⟨m, e, lt_of_lt_of_le h1 digits_le, h2⟩

/-- Odd integers with too many digits, times powers of two, are not numbers of the dtype. -/
theorem not_floats {d : DType} {k e : ℤ} (hk : Odd k) (h : 2 ^ digits d ≤ |k|) : (k * (2 : ℝ) ^ e) ∉ floats d := by
  rintro ⟨m, f, hm, he⟩
  have h2 : (2 : ℝ) ≠ 0 := two_ne_zero
  rcases le_or_gt f e with hfe | hfe
  · obtain ⟨j, hj⟩ := Int.le.dest hfe
    rw [← hj, zpow_add₀ h2, zpow_natCast] at he
    have : (m : ℝ) = k * 2 ^ j := by
      have hz : (2 : ℝ) ^ f ≠ 0 := zpow_ne_zero _ h2
      have : ((k : ℝ) * 2 ^ j) * 2 ^ f = m * 2 ^ f := by rw [← he]; ring
      exact (mul_right_cancel₀ hz this).symm
    have hi : m = k * 2 ^ j := by exact_mod_cast this
    rw [hi, abs_mul, abs_of_pos (pow_pos (by norm_num : (0 : ℤ) < 2) j)] at hm
    have : |k| * 1 ≤ |k| * 2 ^ j := mul_le_mul_of_nonneg_left (one_le_pow₀ (by norm_num)) (abs_nonneg _)
    omega
  · obtain ⟨j, hj⟩ := Int.lt.dest hfe
    rw [← hj, zpow_add₀ h2, zpow_natCast] at he
    have : (k : ℝ) = m * 2 ^ (j + 1) := by
      have hz : (2 : ℝ) ^ e ≠ 0 := zpow_ne_zero _ h2
      have : (k : ℝ) * 2 ^ e = (m * 2 ^ (j + 1)) * 2 ^ e := by
        rw [he, Nat.succ_eq_add_one]; ring
      exact mul_right_cancel₀ hz this
    have hi : k = m * 2 ^ (j + 1) := by exact_mod_cast this
    rw [hi, pow_succ] at hk
    exact (Int.not_odd_iff_even.2 ⟨m * 2 ^ j, by ring⟩) hk

/-- `0.1` as Python reads it -/
noncomputable def tenth : ℝ := 3602879701896397 / 2 ^ 55

theorem tenth_double : tenth ∈ floats .f64 := ⟨3602879701896397, -55, by norm_num [digits], by norm_num [tenth, zpow_neg]⟩
theorem tenth_not_single : tenth ∉ floats .f32 := by
  have := not_floats (d := .f32) (k := 3602879701896397) (e := -55) ⟨1801439850948198, by norm_num⟩ (by norm_num [digits])
  convert this using 1
  norm_num [tenth, zpow_neg]

theorem rd_tenth {rd : DType → ℝ → ℝ} (hr : IsRounding rd) : rd .f32 tenth ≠ tenth := fun h => tenth_not_single (h ▸ hr.mem _ _)

theorem rd_twice {rd : DType → ℝ → ℝ} (hr : IsRounding rd) (x : ℝ) : rd .f64 (rd .f32 x) = rd .f32 x := hr.fix _ _ (floats_mono (hr.mem _ _))

section
variable {rd : DType → ℝ → ℝ} {T U : T3T} {n m P : ℕ} {d d' dp : DType} {v w : Device}

/-! ## C125: numbers given to transforms -/

theorem bcRow_self {i : ℕ} (h : i < n) : bcRow n i = i := by
  unfold bcRow
  split_ifs with h1
  · omega
  · rfl

theorem bsize_one : bsize n 1 = n := by
  unfold bsize
  split_ifs with h <;> omega

theorem nums (hr : IsRounding rd) (s : Bool) {x y z : ℝ} (hx : x ∈ floats d) (hy : y ∈ floats d) (hz : z ∈ floats d) :
    GivesVecs rd d v s (.num x) (.num y) (.num z) 1 d v fun _ => ![x, y, z] := by
  have h := GivesVecs.coords (rd := rd) (dtype := d) (device := v) (s := s) (.num x) (.num y) (.num z) (by simp)
  simp only [wider_self, max_self, hr.fix _ _ hx, hr.fix _ _ hy, hr.fix _ _ hz] at h
  exact h

/-- With the dtype of the transform given explicitly, the builders keep every number of that dtype. -/
theorem C125_builders_partial (hr : IsRounding rd) (hT : IsT T n d v) (hv : T.device = v) {x y z : ℝ} (hx : x ∈ floats d)
    (hy : y ∈ floats d) (hz : z ∈ floats d) :
    (∃ R, T.translate rd (.num x) (.num y) (.num z) d = .ok R ∧ IsT R n d v ∧ ∀ i < n, mat R i = mat T i * mkHom 1 ![x, y, z]) ∧
    (∃ R, T.scale rd (.num x) (.num y) (.num z) d = .ok R ∧ IsT R n d v ∧
      ∀ i < n, mat R i = mat T i * mkHom (Matrix.diagonal ![x, y, z]) 0) := by
  constructor
  · obtain ⟨R, h1, h2, -, -, h3⟩ := C124_method_translate (m := 1) hT hv (nums hr false hx hy hz) (.inr (.inr rfl))
    rw [bsize_one] at h2 h3
    refine ⟨R, h1, h2, fun i hi => ?_⟩
    rw [h3 i hi, bcRow_self hi, asDt, if_pos rfl, asVec, if_pos rfl]
  · obtain ⟨R, h1, h2, -, -, h3⟩ := C124_method_scale (m := 1) hT hv (nums hr true hx hy hz) (.inr (.inr rfl))
    rw [bsize_one] at h2 h3
    refine ⟨R, h1, h2, fun i hi => ?_⟩
    rw [h3 i hi, bcRow_self hi, asDt, if_pos rfl, asVec, if_pos rfl]

/-- Without it they round to single precision: `Transform3d(dtype=float64).translate(0.1, 0, 0)` does not translate by `0.1`. -/
theorem C125_fails_builders (hr : IsRounding rd) :
    ∃ T R, T3T.init none none none 1 .f64 cpu = .ok T ∧ T.translate rd (.num tenth) (.num 0) (.num 0) = .ok R ∧ IsT R 1 .f64 cpu ∧
      translOf (mat R 0) = ![rd .f32 tenth, 0, 0] ∧ rd .f32 tenth ≠ tenth := by
  obtain ⟨T, h0, hT, hh, -, hm⟩ := C124_init_identity (n := 1) (d := .f64) (v := cpu)
  have hdev : T.device = cpu := hh.2.trans (by rw [hT.2]; rfl)
  obtain ⟨R, h1, h2, -, -, h3⟩ := C124_method_translate (rd := rd) (m := 1) (dtype := .f32) hT hdev
    (.coords (.num tenth) (.num 0) (.num 0) (by simp)) (.inr (.inr rfl))
  refine ⟨T, R, h0, h1, h2, ?_, rd_tenth hr⟩
  rw [h3 0 (by decide), show bcRow 1 0 = 0 from rfl, hm 0 (by omega), one_mul]
  have e0 : ∀ d, rd d 0 = 0 := fun d => hr.fix d 0 floats_zero
  funext k
  simp only [translOf, asDt_apply, conv2_eq]
  fin_cases k <;> simp [mkHom, asVec, wider, rd_twice hr, e0]

theorem vecAt_list {k : ℕ} {x : Fin k → ℝ} : vecAt k (listT rd d v (floatList x)) [] = fun i => rd d (x i) := by
  funext i
  refine (ofFn_get (valid1.2 i.isLt)).trans ?_
  congr 1
  refine (ofFn_get (valid1.2 i.isLt)).trans ?_
  exact dif_pos i.isLt

theorem positionList {M : Tn ℝ} (hM : HasMat M [1] 4 4 (flTag d v)) {p : V3} (device : Device) :
    ∃ R, T3T.initS rd (some M) (some (.list (floatList p))) none 1 d' device = .ok R ∧ IsT R 1 (wider d (wider d' d')) v ∧
      mat R 0 = setP (matAt 4 4 M [0]) fun k => rd d' (p k) := by
  have hp : GivesPos (listT rd d' v (floatList p)) (flTag d' v) none _ := .one ⟨rfl, rfl⟩
  obtain ⟨R, h1, h2, -, -, h3⟩ := (C124_init_pos (d := d') (N := 1) (w := device) (GivesBase.many hM) hp).1 1 rfl
  refine ⟨R, ?_, h2, ?_⟩
  · rw [← h1, T3T.initS]
    simp only [Option.map_some, Option.map_none, seqT]
    rw [hM.2]
    rfl
  · rw [h3 0 (by omega), vecAt_list]
    rfl

/-- A position given as list to a transform with a matrix: exact if the constructor is told the dtype. -/
theorem C125_position_list_partial (hr : IsRounding rd) {M : Tn ℝ} (hM : HasMat M [1] 4 4 (flTag d v)) {p : V3} (hp : ∀ k, p k ∈ floats d)
    (device : Device) :
    ∃ R, T3T.initS rd (some M) (some (.list (floatList p))) none 1 d device = .ok R ∧ IsT R 1 d v ∧
      mat R 0 = setP (matAt 4 4 M [0]) p := by
  obtain ⟨R, h1, h2, h3⟩ := positionList (rd := rd) (d' := d) (p := p) hM device
  rw [wider_self, wider_self] at h2
  exact ⟨R, h1, h2, by rw [h3]; congr 1; funext k; exact hr.fix _ _ (hp k)⟩

/-- With the default it is rounded to single precision. -/
theorem C125_fails_position_list (hr : IsRounding rd) {M : Tn ℝ} (hM : HasMat M [1] 4 4 (flTag .f64 v)) :
    ∃ R, T3T.initS rd (some M) (some (.list (floatList ![tenth, 0, 0]))) none = .ok R ∧ IsT R 1 .f64 v ∧
      translOf (mat R 0) = ![rd .f32 tenth, 0, 0] ∧ rd .f32 tenth ≠ tenth := by
  obtain ⟨R, h1, h2, h3⟩ := positionList (rd := rd) (d' := .f32) (p := ![tenth, 0, 0]) hM cpu
  refine ⟨R, h1, h2, ?_, rd_tenth hr⟩
  rw [h3]
  have e0 : ∀ d, rd d 0 = 0 := fun d => hr.fix d 0 floats_zero
  funext k
  fin_cases k <;> simp [translOf, setP, homog, e0]

/-- `RotateAxisAngle` returns single precision whatever dtype it is asked for (its default is `float64`). -/
theorem C125_fails_rotate_axis_angle (a : XYZ) (x : ℝ) (degrees : Bool) (dtype : DType) :
    ∃ R, T3T.mkRotateAxisAngle rd (.num x) [a.upper] degrees dtype cpu = .ok R ∧ IsT R 1 .f32 cpu := by
  obtain ⟨R, h1, h2, -⟩ := C124_rotate_axis_angle (rd := rd) (dtype := dtype) (device := cpu) (.num x) a false degrees
  exact ⟨R, h1, h2⟩

/-- Points of the dtype of the transform: no conversion at all -/
theorem C125_points_partial (hr : IsRounding rd) {X : Tn ℝ} (hT : IsT T n d v) (hX : HasMat X [m] P 3 (flTag d v))
    (ha : ∀ i < n, IsAffine (mat T i)) (h : Compat m n) :
    ∃ R, T.transformPoints rd X none = .ok R ∧ HasMat R [bsize m n] P 3 (flTag d v) ∧
      ∀ i < bsize m n, ∀ j < P, pointAt R i j = act (mat T (bcRow n i)) (pointAt X (bcRow m i) j) := by
  obtain ⟨R, h1, h2, h3⟩ := C124_points (eps := none) hr hT hX ha (by simp) h
  refine ⟨R, h1, h2, fun i hi j hj => ?_⟩
  rw [h3 i hi j hj, asDt, if_pos rfl]

/-- The integer nearest to `x` towards zero -/
noncomputable def towardsZero (x : ℝ) : ℝ := if 0 ≤ x then ⌊x⌋ else ⌈x⌉

/-- Points of dtype `int64`: the fractions of the entries of the matrix are cut off. -/
theorem C125_integer_points {X : Tn ℝ} (hT : IsT T n d v) (hX : HasMat X [m] P 3 ⟨.i64, v⟩) (ha : ∀ i < n, IsAffine (mat T i))
    (h : Compat m n) :
    ∃ R, T.transformPoints rd X none = .ok R ∧ HasMat R [bsize m n] P 3 (flTag .f32 v) ∧
      ∀ i < bsize m n, ∀ j < P, pointAt R i j = act ((mat T (bcRow n i)).map towardsZero) (pointAt X (bcRow m i) j) := by
  have hX' := eta3 (a := X) hX.1
  rw [hX.2] at hX'
  have hg := pointsOut_box (k := T.kind) (a := T.dtype) (w := T.device) (v := v) (da := .i64) (db := .fl d) (m := m) (n := n) (p := P)
    (f := fun i j l => X.get [i, j, l]) (g := fun i j l => T.matrix.get [i, j, l]) rd h
  refine ⟨_, (congrArg₂ (fun (t : T3T) x => t.transformPoints rd x none) hT.eq hX').trans ((transformPoints_of_box rd _ none).trans hg),
    ⟨rfl, rfl⟩, fun i hi j hj => ?_⟩
  have key : ∀ l : Fin 4, rawPts rd .i64 (.fl d) n m (fun i j l => X.get [i, j, l]) (fun i j l => T.matrix.get [i, j, l]) i j l =
      ((mat T (bcRow n i)).map towardsZero *ᵥ homog (pointAt X (bcRow m i) j)) l := by
    intro l
    have e : ∀ x, conv2 rd .i64 (.fl d) x = towardsZero x := fun x => by
      rw [conv2, if_neg (by simp)]; rfl
    simp only [rawPts, homC, Finset.sum_range_succ, Finset.sum_range_zero, zero_add, Matrix.mulVec, dotProduct, Fin.sum_univ_four, e]
    rw [if_pos (by omega), if_pos (by omega), if_pos (by omega), if_neg (by omega)]
    show X.get _ * towardsZero (T.matrix.get [_, l, 0]) + X.get _ * towardsZero (T.matrix.get [_, l, 1]) +
      X.get _ * towardsZero (T.matrix.get [_, l, 2]) + 1 * towardsZero (T.matrix.get [_, l, 3]) =
      towardsZero (T.matrix.get [_, l, 0]) * X.get [_, j, 0] + towardsZero (T.matrix.get [_, l, 1]) * X.get [_, j, 1] +
      towardsZero (T.matrix.get [_, l, 2]) * X.get [_, j, 2] + towardsZero (T.matrix.get [_, l, 3]) * 1
    ring
  have haff : IsAffine ((mat T (bcRow n i)).map towardsZero) := by
    funext c
    have : mat T (bcRow n i) 3 c = (![0, 0, 0, 1] : Fin 4 → ℝ) c := congrFun (ha _ (bcRow_lt h hi).2) c
    show towardsZero (mat T (bcRow n i) 3 c) = _
    rw [this]
    fin_cases c <;> simp [towardsZero]
  obtain ⟨h1, h2⟩ := homog_affine haff (pointAt X (bcRow m i) j)
  funext l
  refine (box_get (t := flTag .f32 v) hi hj l.isLt).trans ?_
  have k1 := key l.castSucc
  have k3 := key 3
  rw [Fin.val_castSucc] at k1
  rw [h2] at k1
  rw [h1] at k3
  rw [k1]
  exact (congrArg _ k3).trans (div_one _)

/-- So a translation by one half does not move integer points. -/
theorem C125_fails_integer_points (hr : IsRounding rd) :
    ∃ T R, T3T.mkTranslate rd (.num (1 / 2)) (.num 0) (.num 0) = .ok T ∧ mat T 0 = mkHom 1 ![1 / 2, 0, 0] ∧
      T.transformPoints rd (ofM ⟨.i64, cpu⟩ [1] 1 3 fun _ _ c => ![1, 2, 3] c) none = .ok R ∧ pointAt R 0 0 = ![1, 2, 3] := by
  have hh : (1 / 2 : ℝ) ∈ floats .f32 := ⟨1, -1, by norm_num [digits], by norm_num⟩
  obtain ⟨T, h1, h2, -, -, h3⟩ := C124_translate (rd := rd) (dtype := .f32) (device := cpu) (nums hr false hh floats_zero floats_zero)
  have hm : mat T 0 = mkHom 1 ![1 / 2, 0, 0] := by rw [h3 0 (by omega), asVec, if_pos rfl]
  obtain ⟨R, h4, -, h5⟩ := C125_integer_points (rd := rd) (m := 1) (P := 1) h2
    (X := ofM ⟨.i64, cpu⟩ [1] 1 3 fun _ _ c => ![1, 2, 3] c) ⟨rfl, rfl⟩ (fun i hi => by rw [h3 i hi]; exact mkHom_affine _ _) (.inl rfl)
  refine ⟨T, R, h1, hm, h4, ?_⟩
  rw [h5 0 (by decide) 0 (by omega), show bcRow 1 0 = 0 from rfl, hm]
  have e : pointAt (ofM ⟨.i64, cpu⟩ [1] 1 3 fun _ _ c => ![1, 2, 3] c) 0 0 = ![1, 2, 3] := by
    funext c
    exact ofM_get (i := [0]) (valid1.2 (by omega)) (by omega) c.isLt
  rw [e]
  have t0 : towardsZero 0 = 0 := by simp [towardsZero]
  have t1 : towardsZero 1 = 1 := by simp [towardsZero]
  have th : towardsZero (1 / 2) = 0 := by
    rw [towardsZero, if_pos (by norm_num)]
    norm_num
  have th' : towardsZero 2⁻¹ = 0 := by rw [← one_div]; exact th
  funext c
  fin_cases c <;> simp [act, actDir, mkHom, Matrix.one_apply, t0, t1, th']

/-! ## C126: numbers read from robot descriptions -/

/-- The offset made from a list of three numbers and a rotation of single precision -/
theorem load_core {rot : SeqT} {Q : ℕ → M3} (hrot : GivesRot (seqT rd .f32 cpu rot) (flTag .f32 cpu) none Q) (xyz : V3) :
    ∃ T, T3T.initS rd none (some (.list (floatList xyz))) (some rot) = .ok T ∧ IsT T 1 .f32 cpu ∧ Honest T ∧
      mat T 0 = mkHom (Q 0) fun k => rd .f32 (xyz k) := by
  have hp : GivesPos (listT rd .f32 cpu (floatList xyz)) (flTag .f32 cpu) none _ := .one ⟨rfl, rfl⟩
  obtain ⟨R, h1, h2, h4, -, h3⟩ := (C124_init_pos_rot (d := .f32) (w := cpu) (GivesBase.identity (n := 1)) hp hrot).1 1 1 rfl rfl
  refine ⟨R, h1, h2, h4, ?_⟩
  rw [h3 0 (by omega), vecAt_list]

/-- What `_convert_transform` of the URDF loader makes of an `<origin>`: the pose of the numbers rounded to single precision. -/
theorem C126_urdf (xyz rpy : V3) : ∃ T, urdfOffsetT rd xyz rpy = .ok T ∧ IsT T 1 .f32 cpu ∧ Honest T ∧
    mat T 0 = rpyPose (fun k => rd .f32 (xyz k)) fun k => rd .f32 (rpy k) := by
  have he : HasVec (listT rd .f32 cpu (floatList rpy)) [] 3 (flTag .f32 cpu) := ⟨rfl, rfl⟩
  obtain ⟨r, e', h1, h2, -, h3⟩ := (C121_quaternion_from_euler he n!"sxyz").1 _ rfl
  have h4 := h3 [] .nil
  obtain ⟨q, e2, h5, -, h6⟩ := C41_quaternion_from_euler false .x .y .z (by decide) (by decide) (vecAt 3 (listT rd .f32 cpu (floatList rpy)) [])
  have h5 : quaternionFromEuler (vecAt 3 (listT rd .f32 cpu (floatList rpy)) []) n!"sxyz" = .ok (q, e2) := h5
  rw [h4] at h5
  obtain ⟨h7, -⟩ := Prod.mk.inj (Except.ok.inj h5)
  obtain ⟨T, h8, h9, h10, h11⟩ := load_core (rd := rd) (rot := .ten r) (.quat h2) xyz
  refine ⟨T, ?_, h9, h10, ?_⟩
  · rw [urdfOffsetT, h1, ok_bind, h8]
  · rw [h11, show seqT rd .f32 cpu (.ten r) = r from rfl, h7, h6, vecAt_list]
    rfl

/-- The SDF loader -/
theorem C126_sdf (xyz rpy : V3) : ∃ T, sdfOffsetT rd xyz rpy = .ok T ∧ IsT T 1 .f32 cpu ∧ Honest T ∧
    mat T 0 = sdfPoseZYX (some ⟨fun k => rd .f32 (xyz k), fun k => rd .f32 (rpy k)⟩) := by
  have he : HasVec (listT rd .f32 cpu (floatList rpy)) [] 3 (flTag .f32 cpu) := ⟨rfl, rfl⟩
  obtain ⟨r, h1, h2, h3⟩ := (C121_euler_angles_to_matrix he n!"ZYX").1 _ rfl
  have h4 := h3 [] .nil
  have h5 := C40_euler_angles_to_matrix .z .y .x (by decide) (by decide) (vecAt 3 (listT rd .f32 cpu (floatList rpy)) [])
  have h5 : eulerAnglesToMatrix (vecAt 3 (listT rd .f32 cpu (floatList rpy)) []) n!"ZYX" = .ok (seqRot true .z .y .x _) := h5
  rw [h4] at h5
  obtain ⟨T, h8, h9, h10, h11⟩ := load_core (rd := rd) (rot := .ten r) (.matrix h2) xyz
  refine ⟨T, ?_, h9, h10, ?_⟩
  · rw [sdfOffsetT, h1, ok_bind, h8]
  · rw [h11, show seqT rd .f32 cpu (.ten r) = r from rfl, Except.ok.inj h5, vecAt_list]
    rfl

/-- The MJCF loader -/
theorem C126_mjcf (pos : V3) (quat : Fin 4 → ℝ) : (∃ T, mjcfOffsetT rd pos quat = .ok T ∧ IsT T 1 .f32 cpu ∧ Honest T ∧
      mat T 0 = mkHom (quaternionToMatrix ⟨rd .f32 (quat 0), rd .f32 (quat 1), rd .f32 (quat 2), rd .f32 (quat 3)⟩) fun k => rd .f32 (pos k)) ∧
    ∃ T, mjcfJointOffsetT rd pos = .ok T ∧ IsT T 1 .f32 cpu ∧ Honest T ∧ mat T 0 = mkHom 1 fun k => rd .f32 (pos k) := by
  constructor
  · have hq : HasVec (listT rd .f32 cpu (floatList quat)) [] 4 (flTag .f32 cpu) := ⟨rfl, rfl⟩
    obtain ⟨T, h8, h9, h10, h11⟩ := load_core (rd := rd) (rot := .list (floatList quat)) (.quat hq) pos
    refine ⟨T, h8, h9, h10, ?_⟩
    rw [h11]
    have e : ∀ i : Fin 4, (listT rd .f32 cpu (floatList quat)).get ([] ++ [i.val]) = rd .f32 (quat i) := fun i =>
      congrFun (vecAt_list (rd := rd) (d := .f32) (v := cpu) (x := quat)) i
    congr 2
    rw [quatAt]
    exact congr (congr (congr (congrArg _ (e 0)) (e 1)) (e 2)) (e 3)
  · have hp : GivesPos (listT rd .f32 cpu (floatList pos)) (flTag .f32 cpu) none _ := .one ⟨rfl, rfl⟩
    obtain ⟨R, h1, h2, h4, -, h3⟩ := (C124_init_pos (d := .f32) (w := cpu) (GivesBase.identity (n := 1)) hp).1 1 rfl
    refine ⟨R, h1, h2, h4, ?_⟩
    rw [h3 0 (by omega), vecAt_list]
    ext r c
    fin_cases r <;> fin_cases c <;> simp [setP, mkHom, homog, Matrix.one_apply]

/-- Moving such an offset to double precision does not bring the lost digits back. -/
theorem toDouble (hr : IsRounding rd) {Q : M3} {p : V3} (hT : IsT T 1 .f32 cpu) (hh : Honest T) (hm : mat T 0 = mkHom Q fun k => rd .f32 (p k))
    (device : Device) (copy : Bool) :
    IsT (T.to rd device copy (some .f64)) 1 .f64 device ∧ translOf (mat (T.to rd device copy (some .f64)) 0) = fun k => rd .f32 (p k) := by
  obtain ⟨h1, -, h2⟩ := C124_to (rd := rd) hT hh device copy (some .f64)
  refine ⟨h1, ?_⟩
  rw [h2 0 (by omega), hm]
  funext k
  simp only [translOf, asDt_apply, conv2_eq, Option.getD_some]
  rw [if_neg (by decide)]
  have : mkHom Q (fun k => rd .f32 (p k)) k.castSucc 3 = rd .f32 (p k) := congrFun (translOf_mkHom (R := Q) (p := fun k => rd .f32 (p k))) k
  rw [this, rd_twice hr]

theorem loaded (xyz rpy : V3) (quat : Fin 4 → ℝ) :
    ∀ o ∈ [urdfOffsetT rd xyz rpy, sdfOffsetT rd xyz rpy, mjcfOffsetT rd xyz quat, mjcfJointOffsetT rd xyz],
    ∃ T Q, o = .ok T ∧ IsT T 1 .f32 cpu ∧ Honest T ∧ mat T 0 = mkHom Q fun k => rd .f32 (xyz k) := by
  intro o ho
  simp only [List.mem_cons, List.not_mem_nil, or_false] at ho
  rcases ho with rfl | rfl | rfl | rfl
  · obtain ⟨T, h1, h2, h3, h4⟩ := C126_urdf (rd := rd) xyz rpy
    exact ⟨T, _, h1, h2, h3, h4⟩
  · obtain ⟨T, h1, h2, h3, h4⟩ := C126_sdf (rd := rd) xyz rpy
    exact ⟨T, _, h1, h2, h3, h4⟩
  · obtain ⟨⟨T, h1, h2, h3, h4⟩, -⟩ := C126_mjcf (rd := rd) xyz quat
    exact ⟨T, _, h1, h2, h3, h4⟩
  · obtain ⟨-, T, h1, h2, h3, h4⟩ := C126_mjcf (rd := rd) xyz quat
    exact ⟨T, _, h1, h2, h3, h4⟩

/-- Offsets of robots read from URDF, SDF and MJCF, moved to double precision: positions that single precision has are kept. -/
theorem C126_positions_partial (hr : IsRounding rd) (xyz rpy : V3) (quat : Fin 4 → ℝ) (hx : ∀ k, xyz k ∈ floats .f32) (device : Device)
    (copy : Bool) : ∀ o ∈ [urdfOffsetT rd xyz rpy, sdfOffsetT rd xyz rpy, mjcfOffsetT rd xyz quat, mjcfJointOffsetT rd xyz],
    ∃ T, o = .ok T ∧ IsT (T.to rd device copy (some .f64)) 1 .f64 device ∧ translOf (mat (T.to rd device copy (some .f64)) 0) = xyz := by
  intro o ho
  obtain ⟨T, Q, h1, h2, h3, h4⟩ := loaded xyz rpy quat o ho
  obtain ⟨h5, h6⟩ := toDouble hr h2 h3 h4 device copy
  exact ⟨T, h1, h5, h6.trans (funext fun k => hr.fix _ _ (hx k))⟩

/-- Others are not: a robot with a link of `0.1` has, after `chain.to(dtype=torch.float64)`, another length. -/
theorem C126_fails (hr : IsRounding rd) (rpy : V3) (quat : Fin 4 → ℝ) (device : Device) (copy : Bool) :
    ∀ o ∈ [urdfOffsetT rd ![tenth, 0, 0] rpy, sdfOffsetT rd ![tenth, 0, 0] rpy, mjcfOffsetT rd ![tenth, 0, 0] quat,
      mjcfJointOffsetT rd ![tenth, 0, 0]],
    ∃ T, o = .ok T ∧ IsT (T.to rd device copy (some .f64)) 1 .f64 device ∧
      translOf (mat (T.to rd device copy (some .f64)) 0) 0 ≠ tenth ∧ tenth ∈ floats .f64 := by
  intro o ho
  obtain ⟨T, Q, h1, h2, h3, h4⟩ := loaded ![tenth, 0, 0] rpy quat o ho
  obtain ⟨h5, h6⟩ := toDouble hr h2 h3 h4 device copy
  refine ⟨T, h1, h5, ?_, tenth_double⟩
  rw [h6]
  exact rd_tenth hr

end

/-! ## The hypotheses are met -/

/-- A rounding exists; one half is a number of both dtypes, a batch of two transforms is translated by it exactly. -/
example : ∃ R, exMany.translate exRd (.num (1 / 2)) (.num 0) (.num 1) .f64 = .ok R ∧ IsT R 2 .f64 cpu ∧
    mat R 1 = mkHom 1 ![1, 0, 0] * mkHom 1 ![1 / 2, 0, 1] := by
  obtain ⟨⟨R, h1, h2, h3⟩, -⟩ := C125_builders_partial isRounding_exRd exMany_isT rfl (x := 1 / 2)
    ⟨1, -1, by norm_num [digits], by norm_num⟩ floats_zero floats_one
  exact ⟨R, h1, h2, by rw [h3 1 (by omega), exMany_mat (by omega), Nat.cast_one]⟩

example : ∃ T R, T3T.init none none none 1 .f64 cpu = .ok T ∧ T.translate exRd (.num tenth) (.num 0) (.num 0) = .ok R ∧
    translOf (mat R 0) = 0 := by
  obtain ⟨T, R, h1, h2, -, h3, -⟩ := C125_fails_builders isRounding_exRd
  refine ⟨T, R, h1, h2, ?_⟩
  rw [h3, exRd, if_neg tenth_not_single]
  funext k
  fin_cases k <;> rfl

/-- An origin of a quarter of a metre is read exactly. -/
example : ∃ T, urdfOffsetT exRd ![1 / 4, 0, 1] 0 = .ok T ∧ translOf (mat (T.to exRd cpu false (some .f64)) 0) = ![1 / 4, 0, 1] := by
  obtain ⟨T, h1, -, h2⟩ := C126_positions_partial isRounding_exRd ![1 / 4, 0, 1] 0 0 (by
    intro k
    fin_cases k
    exacts [⟨1, -2, by norm_num [digits], by norm_num⟩, floats_zero, floats_one]) cpu false _ (List.mem_cons_self ..)
  exact ⟨T, h1, h2⟩

end PK
