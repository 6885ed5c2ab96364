import Verif.Lemmas.TensorMath
import Verif.Props.Math

/-!
# C127: the functions of `math.py` on tensors

`q1` has batch shape `s1`, `q2` batch shape `s2`: pair `i` of the broadcast batch consists of the quaternion of `q1` at
`bidx s1 i` and the one of `q2` at `bidx s2 i`.
-/

namespace PK
open Tn Spec Classical Real
variable {d : DType} {v : Device} {s s1 s2 r : Shape}

/-- the row at batch index `i` is the quaternion `q` -/
def RowIs (c : Tn Fl) (i : List ℕ) (q : Quat) : Prop :=
  c.get (i ++ [0]) = .fin q.w ∧ c.get (i ++ [1]) = .fin q.x ∧ c.get (i ++ [2]) = .fin q.y ∧ c.get (i ++ [3]) = .fin q.z

/-- the row at batch index `i` consists of NaNs -/
def RowNan (c : Tn Fl) (i : List ℕ) : Prop := ∀ k < 4, c.get (i ++ [k]) = .nan

/-! ## quaternion_angular_distance -/

theorem angle_formula {a b : Quat} (ha : IsUnitQ a) (hb : IsUnitQ b) :
    2 * atan2 (Real.sqrt (1 - |clampR (qdot a b) (-1) 1| ^ 2)) |clampR (qdot a b) (-1) 1| = 2 * arccos |inner4 a b| := by
  have hf : ∃ n : Fin 2, 1e-4 ≤ 1 - inner4 ((![a, ⟨1, 0, 0, 0⟩] : Fin 2 → Quat) n) ((![b, ⟨0, 1, 0, 0⟩] : Fin 2 → Quat) n) ^ 2 :=
    ⟨1, by simp [inner4]; norm_num⟩
  have hu : ∀ x y : Quat, IsUnitQ x → IsUnitQ y → ∀ n : Fin 2, IsUnitQ ((![x, y] : Fin 2 → Quat) n) := by
    intro x y hx hy n
    fin_cases n
    · exact hx
    · exact hy
  have h := qad_not_close (![a, ⟨1, 0, 0, 0⟩] : Fin 2 → Quat) ![b, ⟨0, 1, 0, 0⟩] (hu _ _ ha one_unit) (hu _ _ hb i_unit) hf 0
  have hn : ¬ ∀ n : Fin 2, 1 - qdot ((![a, ⟨1, 0, 0, 0⟩] : Fin 2 → Quat) n) ((![b, ⟨0, 1, 0, 0⟩] : Fin 2 → Quat) n) ^ 2 < 1e-4 := by
    intro g
    obtain ⟨n, hn⟩ := hf
    exact absurd (g n) (not_lt.2 hn)
  unfold quaternionAngularDistance quaternionClose at h
  rw [if_neg hn] at h
  exact h

/-- C127 (`quaternion_angular_distance`), for any two batch shapes that broadcast: the result has the broadcast shape, the
dtype and the device of the arguments.  If some pair of the batch is not close, every entry is the rotation angle between
the quaternions of its own pair; if all pairs are close, every entry is 0 (and within 0.0201 of that angle, `C45`). -/
theorem C127_angular_distance {q1 q2 : Tn ℝ} (h1 : HasVec q1 s1 4 (flTag d v)) (h2 : HasVec q2 s2 4 (flTag d v))
    (hb : bshape s1 s2 = .ok r) (u1 : ∀ i, ValidIx i s1 → IsUnitQ (quatAt q1 i)) (u2 : ∀ i, ValidIx i s2 → IsUnitQ (quatAt q2 i)) :
    ∃ c, quaternionAngularDistanceT q1 q2 = .ok c ∧ HasNum c r (flTag d v) ∧
      ((∃ i, ValidIx i r ∧ 1e-4 ≤ 1 - inner4 (quatAt q1 (bidx s1 i)) (quatAt q2 (bidx s2 i)) ^ 2) → ∀ i, ValidIx i r →
        c.get i = rotAngle (quaternionToMatrix (quatAt q1 (bidx s1 i)) * (quaternionToMatrix (quatAt q2 (bidx s2 i))).transpose) ∧
        c.get i = 2 * arccos |inner4 (quatAt q1 (bidx s1 i)) (quatAt q2 (bidx s2 i))|) ∧
      ((∀ i, ValidIx i r → 1 - inner4 (quatAt q1 (bidx s1 i)) (quatAt q2 (bidx s2 i)) ^ 2 < 1e-4) → ∀ i, ValidIx i r → c.get i = 0) := by
  refine ⟨_, by rw [h1.eq, h2.eq, angularDistanceT_V _ _ _ _ hb], ⟨rfl, rfl⟩, ?_, ?_⟩
  · rintro ⟨j, hj, hf⟩ i hi
    have e1 := u1 _ (bidx_left hb hi)
    have e2 := u2 _ (bidx_right hb hi)
    rw [ofFn_get hi, if_neg (fun g => absurd (g j hj) (not_lt.2 hf))]
    have := angle_formula e1 e2
    refine ⟨?_, this⟩
    rw [rotAngle_relative e1 e2]
    exact this
  · intro hc i hi
    rw [ofFn_get hi]
    exact if_pos hc

/-! ## acos_linear_extrapolation -/

/-- C127 (`acos_linear_extrapolation`): on a tensor of any shape the bounds decide between ValueError and a tensor of the
same shape, dtype and device, whose entries are the values of one function at the entries of the argument: arccos between
the bounds, its tangents outside, continuous and strictly decreasing.  What `torch.empty_like` returned does not matter. -/
theorem C127_acos (b : Bound) (l u : ℝ) (hb : BoundIs b l u) :
    ((u < l ∨ l ≤ -1 ∨ 1 ≤ u) → ∀ junk x, acosLinearExtrapolationT junk x b = .error .valueError) ∧
    (-1 < l → l ≤ u → u < 1 → ∃ f : ℝ → ℝ,
      (∀ junk x d v, x.tag = flTag d v → ∃ c, acosLinearExtrapolationT junk x b = .ok c ∧ HasNum c x.shape x.tag ∧
        ∀ i, ValidIx i x.shape → c.get i = f (x.get i)) ∧
      (∀ x, l ≤ x → x ≤ u → f x = arccos x) ∧
      (∀ x, x ≤ l → f x = arccos l + deriv arccos l * (x - l)) ∧
      (∀ x, u ≤ x → f x = arccos u + deriv arccos u * (x - u)) ∧
      Continuous f ∧ StrictAnti f) := by
  have hu : b.unpack = (l, u) := boundIs_iff.1 hb
  constructor
  · intro h junk x
    rw [acosLinearExtrapolationT, hu]
    simp only
    rcases h with h | h
    · rw [if_pos h]
    · by_cases h' : u < l
      · rw [if_pos h']
      · rw [if_neg h', if_pos h]
  · intro h0 hlu h1
    obtain ⟨f, hf, r1, r2, r3, r4, r5⟩ := C44_extends_acos b l u hb h0 hlu h1
    refine ⟨f, fun junk x _ _ _ => ?_, r1, r2, r3, r4, r5⟩
    have hfe : ∀ y, f y = acosExtrapElem l u y := by
      intro y
      have := hf Unit fun _ => y
      unfold acosLinearExtrapolation at this
      rw [hu] at this
      simp only at this
      rw [if_neg (not_lt.2 hlu), if_neg (by rintro (h | h) <;> linarith)] at this
      exact (congrFun (Except.ok.inj this) ()).symm
    have hx : x = ofFn x.tag x.shape x.get := eq_ofS rfl rfl fun _ _ => rfl
    refine ⟨_, (congrArg (acosLinearExtrapolationT junk · b) hx).trans (acosExtrapT_S hu h0 hlu h1 _ _ _), ⟨rfl, rfl⟩, fun i hi => ?_⟩
    rw [ofFn_get hi, hfe]

/-! ## quaternion_slerp -/

theorem flipped_quat (q1 q2 : Tn ℝ) (i : List ℕ) :
    Quat.ofVec (flipped s1 s (vecAt 4 q1) (vecAt 4 q2) i) =
      if inner4 (quatAt q1 (bidx s1 i)) (quatAt q2 i) < 0 then negQ (quatAt q2 i) else quatAt q2 i := by
  have e : flipped s1 s (vecAt 4 q1) (vecAt 4 q2) i =
      if inner4 (quatAt q1 (bidx s1 i)) (quatAt q2 i) < 0 then fun k => -vecAt 4 q2 i k else vecAt 4 q2 i := by
    funext k
    rw [flipped]
    show (if inner4 (quatAt q1 (bidx s1 i)) (quatAt q2 i) < 0 then _ else _) = _
    split_ifs <;> rfl
  rw [e]
  split_ifs <;> rfl

/-- the quaternion the interpolation goes to -/
theorem flip_spec (a b : Quat) :
    (if inner4 a b < 0 then negQ b else b) = (if inner4 a b < 0 then negQ b else b) ∧
    ((if inner4 a b < 0 then negQ b else b) = b ∨ (if inner4 a b < 0 then negQ b else b) = negQ b) ∧
    qdot a (if inner4 a b < 0 then negQ b else b) = |inner4 a b| ∧
    (IsUnitQ b → IsUnitQ (if inner4 a b < 0 then negQ b else b)) := by
  refine ⟨rfl, ?_, ?_, ?_⟩
  · split_ifs
    · exact .inr rfl
    · exact .inl rfl
  · split_ifs with h
    · rw [abs_of_neg h]
      unfold qdot inner4 negQ
      ring
    · rw [abs_of_nonneg (not_lt.1 h)]
      rfl
  · intro hb
    split_ifs
    · unfold IsUnitQ negQ at *
      linarith
    · exact hb

/-- C127 (`quaternion_slerp`), the part that holds: a list of `N` pairs (`q2` of shape `(N, 4)`; `q1` of shape `(N, 4)`,
`(1, 4)` or `(4,)`) that are not all nearly parallel, `t` a number, a tensor without dimensions, of shape `(1,)` or with one
entry per pair.  Row `n` of the result depends on pair `n` and its own parameter alone: it is the point of the arc from the
first quaternion to the nearer one of `±` the second, NaN if the two are parallel.  The second argument of the caller holds
afterwards the nearer quaternions.
Missing: other shapes, and a parameter per pair when all pairs are nearly parallel (`C127_single_pair_fails`,
`C127_grid_fails`, `C127_grid4_wrong`, `C127_one_target_fails`, `C127_steps_fail`). -/
theorem C127_slerp_partial {N : ℕ} {q1 q2 : Tn ℝ} {t : StepT} (h1 : HasVec q1 s1 4 (flTag d v)) (h2 : HasVec q2 [N] 4 (flTag d v))
    (hs : bshape s1 [N] = .ok [N]) (ht : t.Fits (flTag d v) [N]) (u1 : ∀ i, ValidIx i s1 → IsUnitQ (quatAt q1 i))
    (u2 : ∀ n : Fin N, IsUnitQ (quatAt q2 [n])) (hf : ∃ n : Fin N, |inner4 (quatAt q1 (bidx s1 [n])) (quatAt q2 [n])| ≤ 1 - 1e-6) :
    ∃ c, (quaternionSlerpT q1 q2 t).1 = .ok c ∧ c.shape = [N, 4] ∧ c.tag = flTag d v ∧
      (∀ n : Fin N, |inner4 (quatAt q1 (bidx s1 [n])) (quatAt q2 [n])| < 1 →
        ∃ q r, RowIs c [n] q ∧ (r = quatAt q2 [n] ∨ r = negQ (quatAt q2 [n])) ∧ 0 ≤ inner4 (quatAt q1 (bidx s1 [n])) r ∧
          IsUnitQ q ∧ inner4 (quatAt q1 (bidx s1 [n])) q = cos (t.at [n] * arccos (inner4 (quatAt q1 (bidx s1 [n])) r)) ∧
          inner4 q r = cos ((1 - t.at [n]) * arccos (inner4 (quatAt q1 (bidx s1 [n])) r)) ∧
          (t.at [n] = 0 → q = quatAt q1 (bidx s1 [n])) ∧ (t.at [n] = 1 → q = r)) ∧
      (∀ n : Fin N, |inner4 (quatAt q1 (bidx s1 [n])) (quatAt q2 [n])| = 1 → RowNan c [n]) ∧
      HasVec (quaternionSlerpT q1 q2 t).2 [N] 4 (flTag d v) ∧
      ∀ n : Fin N, quatAt (quaternionSlerpT q1 q2 t).2 [n] =
        if inner4 (quatAt q1 (bidx s1 [n])) (quatAt q2 [n]) < 0 then negQ (quatAt q2 [n]) else quatAt q2 [n] := by
  have hd : ∀ n : Fin N, pairDot s1 [N] (vecAt 4 q1) (vecAt 4 q2) [n] = inner4 (quatAt q1 (bidx s1 [n])) (quatAt q2 [n]) := by
    intro n
    rw [pairDot, bidx_valid (valid1.2 n.2)]
    rfl
  have e := (congrArg₂ (quaternionSlerpT · · t) h1.eq h2.eq).trans
    (quaternionSlerpT_V (flTag d v) (vecAt 4 q1) (vecAt 4 q2) hs t)
  rw [slerpTail_far _ _ _ _ _ (by
    obtain ⟨n, hn⟩ := hf
    exact ⟨[n], valid1.2 n.2, by rw [hd]; exact hn⟩)] at e
  rw [sphericalT_1 ((bshape_comm _ _).trans hs) (bshape_self _) _ _ _ ht] at e
  rw [e]
  refine ⟨_, rfl, rfl, rfl, fun n hn => ?_, fun n hn => ?_, ⟨rfl, rfl⟩, fun n => ?_⟩
  · have hv : ValidIx [(n : ℕ)] [N] := valid1.2 n.2
    set a := quatAt q1 (bidx s1 [n]) with ha
    set b := quatAt q2 [n] with hb
    obtain ⟨-, f1, f2, f3⟩ := flip_spec a b
    have fq := flipped_quat (s1 := s1) (s := [N]) q1 q2 [n]
    rw [← ha, ← hb] at fq
    set R := (if inner4 a b < 0 then negQ b else b) with hR
    obtain ⟨q, hq, hu, g1, g2, g3, g4⟩ := slerpElem_spec (u1 _ (bidx_left hs hv)) (f3 (u2 n)) f2 (abs_nonneg _) hn (t.at [n])
    have hir : inner4 a R = |inner4 a b| := f2
    refine ⟨q, R, ?_, f1, ?_, hu, ?_, ?_, g3, g4⟩
    · unfold slerpElem at hq
      simp only at hq
      have hsn : ¬ sin (arccos |inner4 a b|) = 0 := by
        intro h0
        rw [if_pos h0] at hq
        cases hq
      rw [if_neg hsn] at hq
      cases hq
      have hw : ∀ k : Fin 4, (ofV (flTag d v) [N] 4 fun i k => Fl.add
          (AD.mul (weightFl (1 - t.at i) |pairDot s1 [N] (vecAt 4 q1) (vecAt 4 q2) i|) (.fin (vecAt 4 q1 (bidx s1 i) k)))
          (AD.mul (weightFl (t.at i) |pairDot s1 [N] (vecAt 4 q1) (vecAt 4 q2) i|)
            (.fin (flipped s1 [N] (vecAt 4 q1) (vecAt 4 q2) (bidx [N] i) k)))).get ([(n : ℕ)] ++ [k.val]) =
          .fin (sin ((1 - t.at [n]) * arccos |inner4 a b|) / sin (arccos |inner4 a b|) * vecAt 4 q1 (bidx s1 [n]) k +
            sin (t.at [n] * arccos |inner4 a b|) / sin (arccos |inner4 a b|) * flipped s1 [N] (vecAt 4 q1) (vecAt 4 q2) [n] k) := by
        intro k
        rw [ofV_get hv k.2, bidx_valid hv, hd, weightFl_fin _ (abs_nonneg _) hn, weightFl_fin _ (abs_nonneg _) hn]
        rfl
      refine ⟨(hw 0).trans ?_, (hw 1).trans ?_, (hw 2).trans ?_, (hw 3).trans ?_⟩
      all_goals
        rw [← fq]
        rfl
    · rw [hir]; exact abs_nonneg _
    · rw [hir]; exact g1
    · rw [hir]; exact g2
  · intro k hk
    have hv : ValidIx [(n : ℕ)] [N] := valid1.2 n.2
    rw [ofV_get hv hk, hd, hn, weightFl_one, weightFl_one]
    rfl
  · rw [← flipped_quat (s1 := s1) (s := [N]) q1 q2 [n]]
    have hv : ValidIx [(n : ℕ)] [N] := valid1.2 n.2
    exact quatAt_vec hv

/-- C127 (`quaternion_slerp`) when all pairs are nearly parallel, for any batch shape: component `k` of row `i` is
interpolated linearly, with the entry `i + (k,)` of the parameter broadcast to the shape of `q2`.  With one parameter for
the row (a number, a tensor without dimensions, or with a last dimension of size 1) the row is `q1` at 0, `±q2` at 1, and
for a parameter in `[0,1]` its squared length is within `5e-7` of 1. -/
theorem C127_lerp {q1 q2 : Tn ℝ} {t : StepT} (h1 : HasVec q1 s1 4 (flTag d v)) (h2 : HasVec q2 s 4 (flTag d v))
    (hs : bshape s1 s = .ok s) (ht : t.Fits (flTag d v) (s ++ [4])) (u1 : ∀ i, ValidIx i s1 → IsUnitQ (quatAt q1 i))
    (u2 : ∀ i, ValidIx i s → IsUnitQ (quatAt q2 i))
    (hn : ∀ i, ValidIx i s → 1 - 1e-6 < |inner4 (quatAt q1 (bidx s1 i)) (quatAt q2 i)|) :
    ∃ c, (quaternionSlerpT q1 q2 t).1 = .ok c ∧ c.shape = s ++ [4] ∧ c.tag = flTag d v ∧
      (∀ i, ValidIx i s → ∃ r, (r = quatAt q2 i ∨ r = negQ (quatAt q2 i)) ∧ 0 ≤ inner4 (quatAt q1 (bidx s1 i)) r ∧
        (∀ k : Fin 4, c.get (i ++ [k.val]) = .fin ((quatAt q1 (bidx s1 i)).vec k +
          t.at (i ++ [k.val]) * (r.vec k - (quatAt q1 (bidx s1 i)).vec k))) ∧
        ∀ x, (∀ k : Fin 4, t.at (i ++ [k.val]) = x) → ∃ q, RowIs c i q ∧ (x = 0 → q = quatAt q1 (bidx s1 i)) ∧ (x = 1 → q = r) ∧
          (0 ≤ x → x ≤ 1 → 1 - 5e-7 ≤ inner4 q q ∧ inner4 q q ≤ 1)) ∧
      HasVec (quaternionSlerpT q1 q2 t).2 s 4 (flTag d v) ∧
      ∀ i, ValidIx i s → quatAt (quaternionSlerpT q1 q2 t).2 i =
        if inner4 (quatAt q1 (bidx s1 i)) (quatAt q2 i) < 0 then negQ (quatAt q2 i) else quatAt q2 i := by
  have hd : ∀ i, ValidIx i s → pairDot s1 s (vecAt 4 q1) (vecAt 4 q2) i = inner4 (quatAt q1 (bidx s1 i)) (quatAt q2 i) := by
    intro i hi
    rw [pairDot, bidx_valid hi]
    rfl
  have e := (congrArg₂ (quaternionSlerpT · · t) h1.eq h2.eq).trans
    (quaternionSlerpT_V (flTag d v) (vecAt 4 q1) (vecAt 4 q2) hs t)
  rw [slerpTail_near _ _ _ _ _ (fun i hi => by rw [hd i hi]; exact hn i hi), lerpT_V hs _ _ ht] at e
  rw [e]
  refine ⟨_, rfl, rfl, rfl, fun i hi => ?_, ⟨rfl, rfl⟩, fun i hi => ?_⟩
  · obtain ⟨-, f1, f2, f3⟩ := flip_spec (quatAt q1 (bidx s1 i)) (quatAt q2 i)
    have fq := flipped_quat (s1 := s1) (s := s) q1 q2 i
    set a := quatAt q1 (bidx s1 i) with ha
    set b := quatAt q2 i with hb
    set R := (if inner4 a b < 0 then negQ b else b) with hR
    have hir : inner4 a R = |inner4 a b| := f2
    have hw : ∀ k : Fin 4, (ofV (flTag d v) s 4 fun i k => Fl.fin (vecAt 4 q1 (bidx s1 i) k + t.at (i ++ [k.val]) *
        (flipped s1 s (vecAt 4 q1) (vecAt 4 q2) i k - vecAt 4 q1 (bidx s1 i) k))).get (i ++ [k.val]) =
        .fin (a.vec k + t.at (i ++ [k.val]) * (R.vec k - a.vec k)) := by
      intro k
      rw [ofV_get hi k.2, ← fq]
      fin_cases k <;> rfl
    refine ⟨R, f1, by rw [hir]; exact abs_nonneg _, hw, fun x hx => ?_⟩
    have n0 : ¬ inner4 a R < 0 := by rw [hir]; exact not_lt.2 (abs_nonneg _)
    obtain ⟨q, r', g1, g2, g3, g4, g5, g6, g7⟩ := C46_lerp_branch (N := 1) (fun _ => a) (fun _ => R) x (fun _ => u1 _ (bidx_left hs hi))
      (fun _ => f3 (u2 i hi)) (fun _ => by rw [hir, abs_abs]; exact hn i hi) 0
    have hr' : r' = R := by
      rcases g2 with h | h
      · exact h
      · exfalso
        rw [h] at g3
        have : inner4 a (negQ R) = -inner4 a R := by unfold inner4 negQ; ring
        have h9 := hn i hi
        rw [← ha, ← hb] at h9
        rw [this, hir] at g3
        norm_num at h9
        linarith
    rw [hr'] at g6
    refine ⟨q, ?_, g5, g6, g7⟩
    unfold quaternionSlerp at g1
    simp only at g1
    rw [if_pos (by
      intro n
      rw [slerpCos_abs]
      show _ < |inner4 a R|
      rw [hir, abs_abs]
      exact hn i hi)] at g1
    have hflip : slerpFlip (N := 1) (fun _ => a) (fun _ => R) 0 = R := by
      unfold slerpFlip
      exact if_neg n0
    simp only [hflip] at g1
    cases g1
    refine ⟨(hw 0).trans ?_, (hw 1).trans ?_, (hw 2).trans ?_, (hw 3).trans ?_⟩
    all_goals
      rw [hx]
      rfl
  · rw [← flipped_quat (s1 := s1) (s := s) q1 q2 i]
    exact quatAt_vec hi

/-- C127 fails for the code: two quaternions of shape `(4,)` that are not nearly parallel cannot be interpolated; the second
one is negated before the error if that makes it the nearer one. -/
theorem C127_single_pair_fails {q1 q2 : Tn ℝ} {t : StepT} (h1 : HasVec q1 [] 4 (flTag d v)) (h2 : HasVec q2 [] 4 (flTag d v))
    (ht : t.Fits (flTag d v) []) (hf : |inner4 (quatAt q1 []) (quatAt q2 [])| ≤ 1 - 1e-6) :
    (quaternionSlerpT q1 q2 t).1 = .error .indexError ∧
    quatAt (quaternionSlerpT q1 q2 t).2 [] =
      if inner4 (quatAt q1 []) (quatAt q2 []) < 0 then negQ (quatAt q2 []) else quatAt q2 [] := by
  have e := (congrArg₂ (quaternionSlerpT · · t) h1.eq h2.eq).trans
    (quaternionSlerpT_V (flTag d v) (vecAt 4 q1) (vecAt 4 q2) (bshape_self []) t)
  rw [slerpTail_far _ _ _ _ _ ⟨[], validIx_nil.2 rfl, hf⟩] at e
  rw [e]
  constructor
  · show sphericalT _ _ _ _ = _
    rw [sphericalT, slerpWeightT_S (StepT.fits_rest ht), ok_bind, slerpWeightT_S ht, ok_bind]
    rfl
  · rw [quatAt_vec (validIx_nil.2 rfl)]
    exact flipped_quat (s1 := []) (s := []) q1 q2 []

/-- `w[:, None]` on a grid -/
theorem colNone_2 (T : Tag) (A B : ℕ) (w : List ℕ → Fl) :
    colNone (ofFn T [A, B] w) = .ok (ofFn T [A, 1, B] fun i => w [i.headD 0, i.getD 2 0]) := by
  refine congrArg Except.ok (ofFn_congr fun i hi => ?_)
  replace hi : ValidIx i [A, 1, B] := hi
  obtain ⟨a, b, c, rfl⟩ := valid3_cases hi
  exact ofFn_get (valid2.2 ⟨a.2, c.2⟩)

theorem bshape_grid {A B : ℕ} (h1 : B ≠ 1) (h4 : B ≠ 4) : bshape [A, 1, B] [A, B, 4] = .error .runtimeError := by
  simp [bshape, bshapeR, h1, Ne.symm h1, h4, ok_bind, error_bind]

/-- C127 fails for the code: a grid of pairs, shape `(A, B, 4)`, cannot be interpolated for `B` other than 1 and 4, unless
all pairs are nearly parallel. -/
theorem C127_grid_fails {A B : ℕ} {q1 q2 : Tn ℝ} {t : StepT} (h1 : HasVec q1 [A, B] 4 (flTag d v)) (h2 : HasVec q2 [A, B] 4 (flTag d v))
    (hB1 : B ≠ 1) (hB4 : B ≠ 4) (ht : t.Fits (flTag d v) [A, B])
    (hf : ∃ (a : Fin A) (b : Fin B), |inner4 (quatAt q1 [a, b]) (quatAt q2 [a, b])| ≤ 1 - 1e-6) :
    (quaternionSlerpT q1 q2 t).1 = .error .runtimeError := by
  have e := (congrArg₂ (quaternionSlerpT · · t) h1.eq h2.eq).trans
    (quaternionSlerpT_V (flTag d v) (vecAt 4 q1) (vecAt 4 q2) (bshape_self [A, B]) t)
  obtain ⟨a, b, hab⟩ := hf
  have hv : ValidIx [(a : ℕ), (b : ℕ)] [A, B] := valid2.2 ⟨a.2, b.2⟩
  rw [slerpTail_far _ _ _ _ _ ⟨_, hv, by rw [pairDot, bidx_valid hv]; exact hab⟩] at e
  rw [e]
  show sphericalT _ _ _ _ = _
  rw [sphericalT, slerpWeightT_S (StepT.fits_rest ht), ok_bind, slerpWeightT_S ht, ok_bind, colNone_2, ok_bind]
  have : bin AD.mul (ofFn (flTag d v) [A, 1, B] fun i => weightFl (t.rest.at [i.headD 0, i.getD 2 0])
      |pairDot [A, B] [A, B] (vecAt 4 q1) (vecAt 4 q2) [i.headD 0, i.getD 2 0]|)
      (toFl (ofV (flTag d v) [A, B] 4 (vecAt 4 q1))) = .error .runtimeError := by
    rw [bin]
    show (do let r ← bshape [A, 1, B] [A, B, 4]; _) = _
    rw [bshape_grid hB1 hB4]
    rfl
  rw [this]
  rfl

theorem bshape_grid4 (A : ℕ) : bshape [A, 1, 4] [A, 4, 4] = .ok [A, 4, 4] := by
  simp [bshape, bshapeR, ok_bind, pure_ok]

theorem colMul_grid4 (T : Tag) (A : ℕ) (w : List ℕ → Fl) (f : List ℕ → Fin 4 → ℝ) :
    bin AD.mul (ofFn T [A, 1, 4] fun i => w [i.headD 0, i.getD 2 0]) (toFl (ofV T [A, 4] 4 f)) =
      .ok (ofV T [A, 4] 4 fun i k => AD.mul (w [i.headD 0, k.val]) (.fin (f i k))) := by
  rw [toFl_V, bin_bcast (t := T) (s := [A, 1, 4]) (s' := [A, 4, 4]) _ rfl rfl rfl rfl (bshape_grid4 A)]
  refine congrArg Except.ok (eq_ofV rfl rfl fun i k hk hi => ?_)
  obtain ⟨a, b, rfl⟩ := valid2_cases hi
  have hv : ValidIx [(a : ℕ), (b : ℕ), k] [A, 4, 4] := valid3.2 ⟨a.2, b.2, hk⟩
  have e1 : bidx [A, 1, 4] [(a : ℕ), (b : ℕ), k] = [(a : ℕ), 0, k] := by
    have := a.2
    simp only [bidx, bidxR, List.reverse_cons, List.reverse_nil, List.nil_append, List.cons_append]
    by_cases h : A = 1
    · subst h
      have : (a : ℕ) = 0 := by omega
      simp [this]
    · simp [h]
  rw [ofFn_get (by exact hv)]
  show AD.mul (Tn.get _ (bidx [A, 1, 4] [(a : ℕ), (b : ℕ), k])) (Tn.get _ (bidx [A, 4, 4] [(a : ℕ), (b : ℕ), k])) = _
  rw [e1, bidx_valid hv, ofFn_get (valid3.2 ⟨a.2, Nat.one_pos, hk⟩)]
  exact congrArg (AD.mul _) (ofV_get (s := [A, 4]) (n := 4) hi hk)

/-- A grid of pairs with four columns, shape `(A, 4, 4)`: component `k` of the result for pair `(a, b)` has the weights of
pair `(a, k)`. -/
theorem C127_grid4 {A : ℕ} {q1 q2 : Tn ℝ} (t : ℝ) (h1 : HasVec q1 [A, 4] 4 (flTag d v)) (h2 : HasVec q2 [A, 4] 4 (flTag d v))
    (hf : ∃ (a : Fin A) (b : Fin 4), inner4 (quatAt q1 [a, b]) (quatAt q2 [a, b]) ≤ 1 - 1e-6)
    (hp : ∀ (a : Fin A) (b : Fin 4), 0 ≤ inner4 (quatAt q1 [a, b]) (quatAt q2 [a, b]) ∧ inner4 (quatAt q1 [a, b]) (quatAt q2 [a, b]) < 1) :
    ∃ c, (quaternionSlerpT q1 q2 (.num t)).1 = .ok c ∧ c.shape = [A, 4, 4] ∧
      ∀ (a : Fin A) (b k : Fin 4), c.get [a, b, k] =
        .fin (sin ((1 - t) * arccos (inner4 (quatAt q1 [a, k]) (quatAt q2 [a, k]))) /
            sin (arccos (inner4 (quatAt q1 [a, k]) (quatAt q2 [a, k]))) * q1.get [a, b, k] +
          sin (t * arccos (inner4 (quatAt q1 [a, k]) (quatAt q2 [a, k]))) /
            sin (arccos (inner4 (quatAt q1 [a, k]) (quatAt q2 [a, k]))) * q2.get [a, b, k]) := by
  have e := (congrArg₂ (quaternionSlerpT · · (.num t)) h1.eq h2.eq).trans
    (quaternionSlerpT_V (flTag d v) (vecAt 4 q1) (vecAt 4 q2) (bshape_self [A, 4]) (.num t))
  have hv : ∀ (a : Fin A) (b : Fin 4), ValidIx [(a : ℕ), (b : ℕ)] [A, 4] := fun a b => valid2.2 ⟨a.2, b.2⟩
  have hd : ∀ (a : Fin A) (b : Fin 4), |pairDot [A, 4] [A, 4] (vecAt 4 q1) (vecAt 4 q2) [(a : ℕ), (b : ℕ)]| =
      inner4 (quatAt q1 [a, b]) (quatAt q2 [a, b]) := by
    intro a b
    rw [pairDot, bidx_valid (hv a b)]
    exact abs_of_nonneg (hp a b).1
  rw [slerpTail_far _ _ _ _ _ (by
    obtain ⟨a, b, hab⟩ := hf
    exact ⟨_, hv a b, by rw [hd]; exact hab⟩)] at e
  have ht : StepT.Fits (flTag d v) [A, 4] (.num t) := trivial
  rw [sphericalT, slerpWeightT_S (StepT.fits_rest ht), ok_bind, slerpWeightT_S ht, ok_bind, colNone_2, ok_bind,
    colMul_grid4 (w := fun i => weightFl (StepT.at i (StepT.num t).rest) |pairDot [A, 4] [A, 4] (vecAt 4 q1) (vecAt 4 q2) i|), ok_bind,
    colNone_2, ok_bind,
    colMul_grid4 (w := fun i => weightFl (StepT.at i (StepT.num t)) |pairDot [A, 4] [A, 4] (vecAt 4 q1) (vecAt 4 q2) i|), ok_bind,
    bin_V] at e
  rw [e]
  refine ⟨_, rfl, rfl, fun a b k => ?_⟩
  have := ofV_get (t := flTag d v) (s := [A, 4]) (n := 4) (hv a b) k.2 (f := fun i k => Fl.add
    (AD.mul (weightFl (StepT.at [i.headD 0, k.val] (StepT.num t).rest)
      |pairDot [A, 4] [A, 4] (vecAt 4 q1) (vecAt 4 q2) [i.headD 0, k.val]|) (Fl.fin (vecAt 4 q1 i k)))
    (AD.mul (weightFl (StepT.at [i.headD 0, k.val] (StepT.num t)) |pairDot [A, 4] [A, 4] (vecAt 4 q1) (vecAt 4 q2) [i.headD 0, k.val]|)
      (Fl.fin (flipped [A, 4] [A, 4] (vecAt 4 q1) (vecAt 4 q2) i k))))
  refine Eq.trans this ?_
  show Fl.add (AD.mul (weightFl (1 - t) |pairDot [A, 4] [A, 4] (vecAt 4 q1) (vecAt 4 q2) [(a : ℕ), (k : ℕ)]|) (.fin (q1.get [a, b, k])))
    (AD.mul (weightFl t |pairDot [A, 4] [A, 4] (vecAt 4 q1) (vecAt 4 q2) [(a : ℕ), (k : ℕ)]|)
      (.fin (flipped [A, 4] [A, 4] (vecAt 4 q1) (vecAt 4 q2) [(a : ℕ), (b : ℕ)] k))) = _
  have hfl : flipped [A, 4] [A, 4] (vecAt 4 q1) (vecAt 4 q2) [(a : ℕ), (b : ℕ)] k = q2.get [a, b, k] := by
    rw [flipped, bidx_valid (hv a b)]
    exact if_neg (not_lt.2 (hp a b).1)
  rw [hd, weightFl_fin _ (hp a k).1 (hp a k).2, weightFl_fin _ (hp a k).1 (hp a k).2, hfl]
  rfl

/-- four copies of `1` -/
noncomputable def grid1 (T : Tag) : Tn ℝ := ofV T [1, 4] 4 fun _ => ![1, 0, 0, 0]
/-- three half turns and a rotation by 120 degrees, about the first axis -/
noncomputable def grid2 (T : Tag) : Tn ℝ := ofV T [1, 4] 4 fun i => if i = [0, 1] then ![1 / 2, √3 / 2, 0, 0] else ![0, 1, 0, 0]

/-- C127 fails for the code: in a grid of shape `(1, 4, 4)` the midpoint between `1` and a half turn is not a unit
quaternion, because its components have the weights of different pairs. -/
theorem C127_grid4_wrong : ∃ q1 q2 : Tn ℝ, HasVec q1 [1, 4] 4 (flTag .f64 cpu) ∧ HasVec q2 [1, 4] 4 (flTag .f64 cpu) ∧
    (∀ b : Fin 4, IsUnitQ (quatAt q1 [0, b]) ∧ IsUnitQ (quatAt q2 [0, b])) ∧
    ∃ c q, (quaternionSlerpT q1 q2 (.num (1 / 2))).1 = .ok c ∧ RowIs c [0, 0] q ∧ inner4 q q = 5 / 6 := by
  have h3 : √3 * √3 = (3 : ℝ) := Real.mul_self_sqrt (by norm_num)
  have hv : ∀ b : Fin 4, ValidIx [0, (b : ℕ)] [1, 4] := fun b => valid2.2 ⟨Nat.one_pos, b.2⟩
  have e1 : ∀ b : Fin 4, quatAt (grid1 (flTag .f64 cpu)) [0, b] = ⟨1, 0, 0, 0⟩ := by
    intro b
    rw [grid1, quatAt_vec (hv b)]
    rfl
  have e2 : ∀ b : Fin 4, quatAt (grid2 (flTag .f64 cpu)) [0, b] = if b = 1 then ⟨1 / 2, √3 / 2, 0, 0⟩ else ⟨0, 1, 0, 0⟩ := by
    intro b
    rw [grid2, quatAt_vec (hv b)]
    fin_cases b <;> rfl
  have hi : ∀ b : Fin 4, inner4 (quatAt (grid1 (flTag .f64 cpu)) [0, b]) (quatAt (grid2 (flTag .f64 cpu)) [0, b]) =
      if b = 1 then 1 / 2 else 0 := by
    intro b
    rw [e1, e2]
    split_ifs <;> simp [inner4]
  refine ⟨grid1 (flTag .f64 cpu), grid2 (flTag .f64 cpu), ⟨rfl, rfl⟩, ⟨rfl, rfl⟩, fun b => ⟨?_, ?_⟩, ?_⟩
  · rw [e1]; exact one_unit
  · rw [e2]
    split_ifs
    · unfold IsUnitQ; simp only; nlinarith
    · exact i_unit
  · obtain ⟨c, hc, hs, hg⟩ := C127_grid4 (d := .f64) (v := cpu) (A := 1) (q1 := grid1 (flTag .f64 cpu)) (q2 := grid2 (flTag .f64 cpu)) (1 / 2) ⟨rfl, rfl⟩ ⟨rfl, rfl⟩
      ⟨0, 0, by
        have := hi 0
        rw [if_neg (by decide)] at this
        refine le_trans (le_of_eq this) (by norm_num)⟩
      (fun a b => by
        have ha : a = 0 := Subsingleton.elim _ _
        subst ha
        have := hi b
        show 0 ≤ inner4 (quatAt (grid1 (flTag .f64 cpu)) [0, b]) (quatAt (grid2 (flTag .f64 cpu)) [0, b]) ∧ inner4 (quatAt (grid1 (flTag .f64 cpu)) [0, b]) (quatAt (grid2 (flTag .f64 cpu)) [0, b]) < 1
        rw [this]
        split_ifs <;> norm_num)
    have g : ∀ k : Fin 4, c.get [0, 0, k] = .fin (sin ((1 - 1 / 2) * arccos (if k = 1 then 1 / 2 else 0)) / sin (arccos (if k = 1 then 1 / 2 else 0)) *
        (![1, 0, 0, 0] : Fin 4 → ℝ) k + sin (1 / 2 * arccos (if k = 1 then 1 / 2 else 0)) / sin (arccos (if k = 1 then 1 / 2 else 0)) *
        (![0, 1, 0, 0] : Fin 4 → ℝ) k) := by
      intro k
      have h := hg 0 0 k
      have h' := hi k
      have g1 : (grid1 (flTag .f64 cpu)).get [0, 0, (k : ℕ)] = (![1, 0, 0, 0] : Fin 4 → ℝ) k := ofV_get (hv 0) k.2
      have g2 : (grid2 (flTag .f64 cpu)).get [0, 0, (k : ℕ)] = (![0, 1, 0, 0] : Fin 4 → ℝ) k := by
        refine (ofV_get (hv 0) k.2).trans ?_
        rfl
      refine h.trans ?_
      show Fl.fin (sin ((1 - 1 / 2) * arccos (inner4 (quatAt (grid1 (flTag .f64 cpu)) [0, k]) (quatAt (grid2 (flTag .f64 cpu)) [0, k]))) /
            sin (arccos (inner4 (quatAt (grid1 (flTag .f64 cpu)) [0, k]) (quatAt (grid2 (flTag .f64 cpu)) [0, k]))) * (grid1 (flTag .f64 cpu)).get [0, 0, k] +
          sin (1 / 2 * arccos (inner4 (quatAt (grid1 (flTag .f64 cpu)) [0, k]) (quatAt (grid2 (flTag .f64 cpu)) [0, k]))) /
            sin (arccos (inner4 (quatAt (grid1 (flTag .f64 cpu)) [0, k]) (quatAt (grid2 (flTag .f64 cpu)) [0, k]))) * (grid2 (flTag .f64 cpu)).get [0, 0, k]) = _
      rw [h', g1, g2]
    have h12 : arccos (1 / 2) = π / 3 := by
      rw [← Real.cos_pi_div_three, Real.arccos_cos (by positivity) (by linarith [Real.pi_pos])]
    refine ⟨c, ⟨√2 / 2, √3 / 3, 0, 0⟩, hc, ⟨(g 0).trans ?_, (g 1).trans ?_, (g 2).trans ?_, (g 3).trans ?_⟩, ?_⟩
    · rw [if_neg (by decide), Real.arccos_zero, show (1 - 1 / 2) * (π / 2) = π / 4 by ring, Real.sin_pi_div_four, Real.sin_pi_div_two]
      simp
    · rw [if_pos rfl, h12, show 1 / 2 * (π / 3) = π / 6 by ring, Real.sin_pi_div_six, Real.sin_pi_div_three]
      have h0 : √3 ≠ 0 := by positivity
      simp only [Matrix.cons_val_one, Matrix.cons_val_zero, mul_zero, zero_add, mul_one]
      congr 1
      field_simp
      nlinarith
    · simp
    · simp
    · have h2 : √2 * √2 = (2 : ℝ) := Real.mul_self_sqrt (by norm_num)
      unfold inner4
      simp only
      nlinarith

/-- C127 fails for the code: `q1` of shape `(N, 4)` cannot be interpolated to a single `q2` of shape `(4,)` or `(1, 4)`,
unless the number of pairs happens to be 4 or 1. -/
theorem C127_one_target_fails {N : ℕ} {q1 q2 : Tn ℝ} {t : StepT} (hN1 : N ≠ 1) (h1 : HasVec q1 [N] 4 (flTag d v))
    (h2 : (HasVec q2 [] 4 (flTag d v) ∧ N ≠ 4) ∨ HasVec q2 [1] 4 (flTag d v)) :
    quaternionSlerpT q1 q2 t = (.error .indexError, q2) := by
  rcases h2 with ⟨h2, h4⟩ | h2
  · have e := sumProdT_4 (flTag d v) (vecAt 4 q1) (vecAt 4 q2) (bshape_nil_right [N])
    rw [← h1.eq, ← h2.eq] at e
    rw [quaternionSlerpT, e]
    simp only
    rw [negWhere, putWhere, if_neg]
    show ¬ [N] = q2.shape.take 1
    rw [h2.1]
    simp [h4]
  · have hb : bshape [N] [1] = .ok [N] := by simp [bshape, bshapeR, hN1, ok_bind, pure_ok]
    have e := sumProdT_4 (flTag d v) (vecAt 4 q1) (vecAt 4 q2) hb
    rw [← h1.eq, ← h2.eq] at e
    rw [quaternionSlerpT, e]
    simp only
    rw [negWhere, putWhere, if_neg]
    show ¬ [N] = q2.shape.take 1
    rw [h2.1]
    simp [hN1]

/-- `1`, `-i`, `1`, `1` -/
noncomputable def four1 (T : Tag) : Tn ℝ := ofV T [4] 4 fun i => if i = [1] then ![0, -1, 0, 0] else ![1, 0, 0, 0]
noncomputable def one2 (T : Tag) : Tn ℝ := ofV T [] 4 fun _ => ![3 / 5, 4 / 5, 0, 0]

/-- C127 fails for the code: with four quaternions `q1` and a single `q2` of shape `(4,)` single components of `q2` are
negated, for the caller too, and the interpolation ends (`t = 1`) at something that is neither `q2` nor `-q2`. -/
theorem C127_one_target4_wrong : ∃ q1 q2 : Tn ℝ, HasVec q1 [4] 4 (flTag .f64 cpu) ∧ HasVec q2 [] 4 (flTag .f64 cpu) ∧
    (∀ n : Fin 4, IsUnitQ (quatAt q1 [n])) ∧ IsUnitQ (quatAt q2 []) ∧ quatAt q2 [] = ⟨3 / 5, 4 / 5, 0, 0⟩ ∧
    quatAt (quaternionSlerpT q1 q2 (.num 1)).2 [] = ⟨3 / 5, -(4 / 5), 0, 0⟩ ∧
    ∃ c, (quaternionSlerpT q1 q2 (.num 1)).1 = .ok c ∧ ∀ n : Fin 4, RowIs c [n] ⟨3 / 5, -(4 / 5), 0, 0⟩ := by
  have hv : ∀ n : Fin 4, ValidIx [(n : ℕ)] [4] := fun n => valid1.2 n.2
  have e1 : ∀ n : Fin 4, quatAt (four1 (flTag .f64 cpu)) [n] = if n = 1 then ⟨0, -1, 0, 0⟩ else ⟨1, 0, 0, 0⟩ := by
    intro n
    rw [four1, quatAt_vec (hv n)]
    fin_cases n <;> rfl
  have e2 : quatAt (one2 (flTag .f64 cpu)) [] = ⟨3 / 5, 4 / 5, 0, 0⟩ := by
    rw [one2, quatAt_vec (validIx_nil.2 rfl)]
    rfl
  set f : List ℕ → Fin 4 → ℝ := fun i => if i = [1] then ![0, -1, 0, 0] else ![1, 0, 0, 0] with hf
  set g : List ℕ → Fin 4 → ℝ := fun _ => ![3 / 5, 4 / 5, 0, 0] with hg
  have hdot : ∀ n : Fin 4, pairDot [4] [] f g [(n : ℕ)] = if n = 1 then -(4 / 5) else 3 / 5 := by
    intro n
    rw [pairDot, bidx_valid (hv n)]
    fin_cases n <;> simp [hf, hg, qdot, Quat.ofVec]
  have hflip : negWhere (one2 (flTag .f64 cpu)) (test (· < 0) (ofFn (flTag .f64 cpu) [4] (pairDot [4] [] f g))) =
      .ok (ofV (flTag .f64 cpu) [] 4 fun _ => ![3 / 5, -(4 / 5), 0, 0]) := by
    have h := putWhere_S (flTag .f64 cpu) [4] (one2 (flTag .f64 cpu)).get (test (· < 0) (ofFn (flTag .f64 cpu) [4] (pairDot [4] [] f g))) rfl
      fun i => -(one2 (flTag .f64 cpu)).get i
    have e : one2 (flTag .f64 cpu) = ofFn (flTag .f64 cpu) [4] (one2 (flTag .f64 cpu)).get := eq_ofS rfl rfl fun _ _ => rfl
    rw [← e] at h
    refine Eq.trans h (congrArg Except.ok (eq_ofV rfl rfl fun i k hk hi => ?_))
    obtain rfl := validIx_nil.1 hi
    have hk' : ValidIx ([] ++ [k]) [4] := hv ⟨k, hk⟩
    rw [ofFn_get hk', test_get hk']
    have ho : (one2 (flTag .f64 cpu)).get ([] ++ [k]) = (![3 / 5, 4 / 5, 0, 0] : Fin 4 → ℝ) ⟨k, hk⟩ := ofV_get (validIx_nil.2 rfl) hk
    have hd := hdot ⟨k, hk⟩
    rw [ho]
    show (if decide (pairDot [4] [] f g [k] < 0) = true then _ else _) = _
    rw [hd]
    interval_cases k
    · rw [if_neg (by rw [if_neg (by simp [Fin.ext_iff]), decide_eq_true_iff]; norm_num)]; rfl
    · rw [if_pos (by rw [if_pos (by simp [Fin.ext_iff]), decide_eq_true_iff]; norm_num)]; rfl
    · rw [if_neg (by rw [if_neg (by simp [Fin.ext_iff]), decide_eq_true_iff]; norm_num)]; rfl
    · rw [if_neg (by rw [if_neg (by simp [Fin.ext_iff]), decide_eq_true_iff]; norm_num)]; rfl
  have hc : ∀ n : Fin 4, 0 ≤ |pairDot [4] [] f g [(n : ℕ)]| ∧ |pairDot [4] [] f g [(n : ℕ)]| < 1 := by
    intro n
    refine ⟨abs_nonneg _, ?_⟩
    rw [hdot]
    split_ifs <;> norm_num [abs_lt]
  have e : quaternionSlerpT (four1 (flTag .f64 cpu)) (one2 (flTag .f64 cpu)) (.num 1) =
      (.ok (ofV (flTag .f64 cpu) [4] 4 fun i k => Fl.add
        (AD.mul (weightFl (1 - StepT.at i (.num 1)) |pairDot [4] [] f g i|) (.fin (f (bidx [4] i) k)))
        (AD.mul (weightFl (StepT.at i (.num 1)) |pairDot [4] [] f g i|) (.fin ((![3 / 5, -(4 / 5), 0, 0] : Fin 4 → ℝ) k)))),
        ofV (flTag .f64 cpu) [] 4 fun _ => ![3 / 5, -(4 / 5), 0, 0]) := by
    have hs := sumProdT_4 (flTag .f64 cpu) f g (bshape_nil_right [4])
    have hs' : sumProdT (four1 (flTag .f64 cpu)) (one2 (flTag .f64 cpu)) = .ok (ofFn (flTag .f64 cpu) [4] (pairDot [4] [] f g)) := hs
    rw [quaternionSlerpT, hs']
    simp only
    rw [hflip, negWhere_abs]
    simp only
    rw [ok_bind, slerpTail_far _ _ _ _ _ ⟨[0], hv 0, by
      have := hdot 0
      rw [if_neg (by decide)] at this
      rw [show ([0] : List ℕ) = [((0 : Fin 4) : ℕ)] from rfl, this]
      norm_num [abs_le]⟩]
    have := sphericalT_1 (d := .f64) (v := cpu) (t := .num 1) (bshape_self [4]) (bshape_nil_right [4]) f
      (fun _ => ![3 / 5, -(4 / 5), 0, 0]) (fun i => |pairDot [4] [] f g i|) trivial
    exact Prod.ext this rfl
  refine ⟨four1 (flTag .f64 cpu), one2 (flTag .f64 cpu), ⟨rfl, rfl⟩, ⟨rfl, rfl⟩, fun n => ?_, ?_, e2, ?_, ?_⟩
  · rw [e1]
    split_ifs <;> norm_num [IsUnitQ]
  · rw [e2]; norm_num [IsUnitQ]
  · rw [e, quatAt_vec (validIx_nil.2 rfl)]
    rfl
  · rw [e]
    refine ⟨_, rfl, fun n => ?_⟩
    have hw : ∀ k : Fin 4, (ofV (flTag .f64 cpu) [4] 4 fun i k => Fl.add
        (AD.mul (weightFl (1 - StepT.at i (.num 1)) |pairDot [4] [] f g i|) (.fin (f (bidx [4] i) k)))
        (AD.mul (weightFl (StepT.at i (.num 1)) |pairDot [4] [] f g i|) (.fin ((![3 / 5, -(4 / 5), 0, 0] : Fin 4 → ℝ) k)))).get
        ([(n : ℕ)] ++ [k.val]) = .fin ((![3 / 5, -(4 / 5), 0, 0] : Fin 4 → ℝ) k) := by
      intro k
      rw [ofV_get (hv n) k.2]
      have h1 : weightFl (1 - StepT.at [(n : ℕ)] (.num 1)) |pairDot [4] [] f g [(n : ℕ)]| = .fin 0 := by
        rw [weightFl_fin _ (hc n).1 (hc n).2]
        show Fl.fin (sin ((1 - 1) * _) / _) = _
        simp
      have h2 : weightFl (StepT.at [(n : ℕ)] (.num 1)) |pairDot [4] [] f g [(n : ℕ)]| = .fin 1 := by
        have hs : 0 < sin (arccos |pairDot [4] [] f g [(n : ℕ)]|) := by
          rw [Real.sin_arccos]; exact Real.sqrt_pos.2 (by nlinarith [(hc n).1, (hc n).2])
        rw [weightFl_fin _ (hc n).1 (hc n).2]
        show Fl.fin (sin (1 * _) / _) = _
        rw [one_mul, div_self hs.ne']
      rw [h1, h2]
      show Fl.fin (0 * _ + 1 * _) = _
      rw [zero_mul, one_mul, zero_add]
    exact ⟨hw 0, hw 1, hw 2, hw 3⟩

theorem slerpWeightT_col {N : ℕ} {y : Tn ℝ} (hN1 : N ≠ 1) (hy : HasNum y [N, 1] (flTag d v)) (c : List ℕ → ℝ) :
    ∃ w, slerpWeightT (.ten y) (mapFl (fun c => AD.acos (.fin c)) (ofFn (flTag d v) [N] c))
      (mapG (AD.lift Real.sin) (mapFl (fun c => AD.acos (.fin c)) (ofFn (flTag d v) [N] c))) = .ok (ofFn (flTag d v) [N, N] w) := by
  have b1 : bshape [N, 1] [N] = .ok [N, N] := by simp [bshape, bshapeR, Ne.symm hN1, ok_bind, pure_ok]
  have b2 : bshape [N, N] [N] = .ok [N, N] := by simp [bshape, bshapeR, ok_bind, pure_ok]
  rw [slerpWeightT, mapFl_S, mapG_S, StepT.timesFl, bin_bcast (a := toFl y) (t := flTag d v) (s := [N, 1]) (s' := [N]) _ hy.1 rfl hy.2 rfl b1,
    ok_bind, mapG_S, bin_bcast (t := flTag d v) (s := [N, N]) (s' := [N]) _ rfl rfl rfl rfl b2]
  exact ⟨_, rfl⟩

/-- C127 fails for the code: one parameter per pair.  A tensor of shape `(N,)` raises when all pairs are nearly parallel, a
tensor of shape `(N, 1)` raises when they are not, so that neither can be used without looking at the quaternions first
(`N` other than 1 and 4). -/
theorem C127_steps_fail {N : ℕ} {q1 q2 x y : Tn ℝ} (hN1 : N ≠ 1) (hN4 : N ≠ 4) (h1 : HasVec q1 [N] 4 (flTag d v))
    (h2 : HasVec q2 [N] 4 (flTag d v)) (hx : HasNum x [N] (flTag d v)) (hy : HasNum y [N, 1] (flTag d v)) :
    ((∀ n : Fin N, 1 - 1e-6 < |inner4 (quatAt q1 [n]) (quatAt q2 [n])|) →
      (quaternionSlerpT q1 q2 (.ten x)).1 = .error .runtimeError) ∧
    ((∃ n : Fin N, |inner4 (quatAt q1 [n]) (quatAt q2 [n])| ≤ 1 - 1e-6) →
      (quaternionSlerpT q1 q2 (.ten y)).1 = .error .runtimeError) := by
  have hd : ∀ n : Fin N, pairDot [N] [N] (vecAt 4 q1) (vecAt 4 q2) [n] = inner4 (quatAt q1 [n]) (quatAt q2 [n]) := by
    intro n
    rw [pairDot, bidx_valid (valid1.2 n.2)]
    rfl
  constructor
  · intro hn
    have e := (congrArg₂ (quaternionSlerpT · · (.ten x)) h1.eq h2.eq).trans
      (quaternionSlerpT_V (flTag d v) (vecAt 4 q1) (vecAt 4 q2) (bshape_self [N]) (.ten x))
    rw [slerpTail_near _ _ _ _ _ (fun i hi => by
      obtain ⟨n, rfl⟩ := valid1_cases hi
      rw [hd]; exact hn n)] at e
    rw [e]
    show lerpT _ _ _ = _
    rw [lerpT, sub, bin_V, ok_bind, StepT.times, mul, bin]
    show (do let u ← (do let r ← bshape x.shape [N, 4]; _); _) = _
    rw [hx.1, show bshape [N] [N, 4] = .error .runtimeError by simp [bshape, bshapeR, hN1, hN4, ok_bind, error_bind]]
    rfl
  · intro hf
    have e := (congrArg₂ (quaternionSlerpT · · (.ten y)) h1.eq h2.eq).trans
      (quaternionSlerpT_V (flTag d v) (vecAt 4 q1) (vecAt 4 q2) (bshape_self [N]) (.ten y))
    rw [slerpTail_far _ _ _ _ _ (by
      obtain ⟨n, hn⟩ := hf
      exact ⟨[n], valid1.2 n.2, by rw [hd]; exact hn⟩)] at e
    rw [e]
    show sphericalT _ _ _ _ = _
    have hr : HasNum (map (1 - ·) y) [N, 1] (flTag d v) := ⟨hy.1, (congrArg trig hy.2).trans (trig_fl _ _)⟩
    obtain ⟨w1, e1⟩ := slerpWeightT_col hN1 hr (fun i => |pairDot [N] [N] (vecAt 4 q1) (vecAt 4 q2) i|)
    obtain ⟨w2, e2⟩ := slerpWeightT_col hN1 hy (fun i => |pairDot [N] [N] (vecAt 4 q1) (vecAt 4 q2) i|)
    rw [sphericalT, StepT.rest, e1, ok_bind, e2, ok_bind, colNone_2, ok_bind, bin]
    show (do let u ← (do let r ← bshape [N, 1, N] [N, 4]; _); _) = _
    rw [show bshape [N, 1, N] [N, 4] = .error .runtimeError by
      simp [bshape, bshapeR, hN1, Ne.symm hN1, hN4, ok_bind, error_bind]]
    rfl

/-! ## Concrete cases -/

section cases
/-- `1` and `(3/5, 4/5, 0, 0)` -/
noncomputable def two1 : Tn ℝ := ofV (flTag .f64 cpu) [2] 4 fun i => if i = [0] then ![1, 0, 0, 0] else ![3 / 5, 4 / 5, 0, 0]
/-- `-i` and `1` -/
noncomputable def two2 : Tn ℝ := ofV (flTag .f64 cpu) [2] 4 fun i => if i = [0] then ![0, -1, 0, 0] else ![1, 0, 0, 0]
/-- parameters 1/4 and 1/2 -/
noncomputable def twoT : Tn ℝ := ofFn (flTag .f64 cpu) [2] fun i => if i = [0] then 1 / 4 else 1 / 2

theorem two1_rows : quatAt two1 [0] = ⟨1, 0, 0, 0⟩ ∧ quatAt two1 [1] = ⟨3 / 5, 4 / 5, 0, 0⟩ := by
  constructor <;> rw [two1, quatAt_vec (valid1.2 (by omega))] <;> rfl
theorem two2_rows : quatAt two2 [0] = ⟨0, -1, 0, 0⟩ ∧ quatAt two2 [1] = ⟨1, 0, 0, 0⟩ := by
  constructor <;> rw [two2, quatAt_vec (valid1.2 (by omega))] <;> rfl

theorem two1_unit : ∀ i, ValidIx i [2] → IsUnitQ (quatAt two1 i) := by
  intro i hi
  obtain ⟨n, rfl⟩ := valid1_cases hi
  fin_cases n
  · show IsUnitQ (quatAt two1 [0])
    rw [two1_rows.1]; norm_num [IsUnitQ]
  · show IsUnitQ (quatAt two1 [1])
    rw [two1_rows.2]; norm_num [IsUnitQ]
theorem two2_unit : ∀ i, ValidIx i [2] → IsUnitQ (quatAt two2 i) := by
  intro i hi
  obtain ⟨n, rfl⟩ := valid1_cases hi
  fin_cases n
  · show IsUnitQ (quatAt two2 [0])
    rw [two2_rows.1]; norm_num [IsUnitQ]
  · show IsUnitQ (quatAt two2 [1])
    rw [two2_rows.2]; norm_num [IsUnitQ]
theorem two_far : |inner4 (quatAt two1 [0]) (quatAt two2 [0])| ≤ 1 - 1e-6 := by
  rw [two1_rows.1, two2_rows.1]
  norm_num [inner4]

/-- all hypotheses of `C127_slerp_partial` hold for two pairs with a parameter each -/
example : ∃ c, (quaternionSlerpT two1 two2 (.ten twoT)).1 = .ok c ∧ c.shape = [2, 4] := by
  obtain ⟨c, h, hs, -⟩ := C127_slerp_partial (N := 2) (s1 := [2]) (d := .f64) (v := cpu) (q1 := two1) (q2 := two2) (t := .ten twoT)
    ⟨rfl, rfl⟩ ⟨rfl, rfl⟩ (bshape_self _) ⟨rfl, bshape_self _⟩ two1_unit (fun n => two2_unit _ (valid1.2 n.2))
    ⟨0, by
      show |inner4 (quatAt two1 (bidx [2] [0])) (quatAt two2 [0])| ≤ _
      rw [bidx_valid (valid1.2 (by omega))]
      exact two_far⟩
  exact ⟨c, h, hs⟩

/-- all hypotheses of `C127_angular_distance` hold -/
example : ∃ c, quaternionAngularDistanceT two1 two2 = .ok c ∧ HasNum c [2] (flTag .f64 cpu) := by
  obtain ⟨c, h, hs, -⟩ := C127_angular_distance (d := .f64) (v := cpu) (q1 := two1) (q2 := two2) ⟨rfl, rfl⟩ ⟨rfl, rfl⟩ (bshape_self [2])
    two1_unit two2_unit
  exact ⟨c, h, hs⟩

/-- all hypotheses of `C127_lerp` hold for a batch interpolated with itself -/
example : ∃ c, (quaternionSlerpT two1 two1 (.num (1 / 3))).1 = .ok c ∧ c.shape = [2, 4] := by
  obtain ⟨c, h, hs, -⟩ := C127_lerp (s := [2]) (d := .f64) (v := cpu) (q1 := two1) (q2 := two1) (t := .num (1 / 3)) ⟨rfl, rfl⟩
    ⟨rfl, rfl⟩ (bshape_self _) trivial two1_unit two1_unit (fun i hi => by
      rw [bidx_valid hi]
      have := two1_unit i hi
      unfold IsUnitQ at this
      have h1 : inner4 (quatAt two1 i) (quatAt two1 i) = 1 := by unfold inner4; nlinarith
      rw [h1]
      norm_num)
  exact ⟨c, h, hs⟩

/-- bounds that are accepted and bounds that are not -/
example : (∃ c, acosLinearExtrapolationT (fun _ => 7) twoT (.scalar (9 / 10)) = .ok c ∧ HasNum c [2] (flTag .f64 cpu)) ∧
    acosLinearExtrapolationT (fun _ => 7) twoT (.pair (1 / 2) (-1 / 2)) = .error .valueError := by
  constructor
  · obtain ⟨f, h, -⟩ := (C127_acos (.scalar (9 / 10)) (-(9 / 10)) (9 / 10) (boundIs_iff.2 rfl)).2 (by norm_num) (by norm_num) (by norm_num)
    obtain ⟨c, h1, h2, -⟩ := h (fun _ => 7) twoT .f64 cpu rfl
    exact ⟨c, h1, h2⟩
  · exact (C127_acos (.pair (1 / 2) (-1 / 2)) (1 / 2) (-1 / 2) (boundIs_iff.2 rfl)).1 (.inl (by norm_num)) _ _

end cases
end PK
