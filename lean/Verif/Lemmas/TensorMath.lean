import Verif.Model.TensorMath
import Verif.Lemmas.TensorT3Ops
import Verif.Props.Batch

/-!
# The operations of `Model/TensorMath.lean`
-/

namespace PK.Tn
open Classical Spec
variable {α β γ : Type} [Inhabited α] [Inhabited β] [Inhabited γ]

theorem bshapeR_comm : ∀ s t : Shape, bshapeR s t = bshapeR t s
  | [], [] => rfl
  | [], _ :: _ => rfl
  | _ :: _, [] => rfl
  | a :: s, b :: t => by
    rw [bshapeR, bshapeR, bshapeR_comm s t]
    rcases bshapeR t s with e | r
    · rfl
    · simp only [ok_bind]
      by_cases h : a = b
      · subst h; rfl
      · rw [if_neg h, if_neg (Ne.symm h)]
        split_ifs <;> simp_all

theorem bshape_comm (s t : Shape) : bshape s t = bshape t s := by
  rw [bshape, bshape, bshapeR_comm]

theorem bin_1VB (f : α → β → γ) (t : Tag) {s s' r : Shape} (n : ℕ) (a : List ℕ → Fin 1 → α) (b : List ℕ → Fin n → β)
    (h : bshape s s' = .ok r) :
    bin f (ofV t s 1 a) (ofV t s' n b) = .ok (ofV t r n fun i k => f (a (bidx s i) 0) (b (bidx s' i) k)) := by
  have hb : bshape (s ++ [1]) (s' ++ [n]) = .ok (r ++ [n]) := bshape_snoc h (.inr (.inl ⟨rfl, rfl⟩))
  rw [bin_bcast (t := t) (s := s ++ [1]) (s' := s' ++ [n]) f rfl rfl rfl rfl hb]
  refine congrArg Except.ok (eq_ofV rfl rfl fun i k hk hi => ?_)
  rw [ofFn_get (validIx_snoc.2 ⟨hi, hk⟩), bidx_snoc, bidx_snoc, if_pos rfl]
  have : (if n = 1 then 0 else k) = k := by split_ifs <;> omega
  rw [this, ofV_get (bidx_left h hi) Nat.one_pos, ofV_get (bidx_right h hi) hk]
  rfl

theorem sumProdT_V (t : Tag) {s s' r : Shape} (n : ℕ) (a b : List ℕ → Fin n → ℝ) (h : bshape s s' = .ok r) :
    sumProdT (ofV t s n a) (ofV t s' n b) = .ok (ofFn t r fun i => ∑ k, a (bidx s i) k * b (bidx s' i) k) := by
  rw [sumProdT, mul, bin_VB _ _ _ _ _ h, ok_bind, sum_V]

theorem test_get {p : ℝ → Prop} {t : Tag} {s : Shape} {f : List ℕ → ℝ} {i : List ℕ} (hi : ValidIx i s) :
    (test p (ofFn t s f)).get i = decide (p (f i)) := by
  rw [test, ofFn_get (by exact hi), ofFn_get hi]

theorem allT_test (p : ℝ → Prop) (t : Tag) (s : Shape) (f : List ℕ → ℝ) :
    (allT (test p (ofFn t s f))).get [] = true ↔ ∀ i, ValidIx i s → p (f i) := by
  rw [allT, ofFn_get (validIx_nil.2 rfl), decide_eq_true_iff]
  refine forall_congr' fun i => forall_congr' fun hi => ?_
  rw [test_get (by exact hi), decide_eq_true_iff]

/-- a mask of the shape of the tensor -/
theorem putWhere_S (t : Tag) (s : Shape) (a : List ℕ → α) (m : Tn Bool) (hm : m.shape = s) (v : List ℕ → α) :
    putWhere (ofFn t s a) m v = .ok (ofFn t s fun i => if m.get i then v i else a i) := by
  rw [putWhere, if_pos (by rw [hm]; simp)]
  refine congrArg Except.ok (ofFn_congr fun i hi => ?_)
  replace hi : ValidIx i s := hi
  rw [ofFn_get hi]
  have : i.take m.shape.length = i := by
    rw [List.take_of_length_le]
    rw [hm, hi.length]
  rw [this]

/-- a mask without dimensions -/
theorem putWhere_nil (t : Tag) (s : Shape) (a : List ℕ → α) (m : Tn Bool) (hm : m.shape = []) (v : List ℕ → α) :
    putWhere (ofFn t s a) m v = .ok (ofFn t s fun i => if m.get [] then v i else a i) := by
  rw [putWhere, if_pos (by rw [hm]; simp)]
  refine congrArg Except.ok (ofFn_congr fun i hi => ?_)
  replace hi : ValidIx i s := hi
  rw [ofFn_get hi, hm]
  rfl

/-- a mask of the batch of vectors -/
theorem putWhere_V (t : Tag) (s : Shape) (n : ℕ) (a : List ℕ → Fin n → α) (m : Tn Bool) (hm : m.shape = s) (v : List ℕ → α) :
    putWhere (ofV t s n a) m v = .ok (ofV t s n fun i k => if m.get i then v (i ++ [k.val]) else a i k) := by
  rw [putWhere, if_pos (by rw [hm]; simp)]
  refine congrArg Except.ok (eq_ofV rfl rfl fun i k hk hi => ?_)
  rw [ofFn_get (by exact validIx_snoc.2 ⟨hi, hk⟩), ofV_get hi hk]
  have : (i ++ [k]).take m.shape.length = i := by
    rw [hm, ← hi.length, List.take_left]
  rw [this]

end PK.Tn

namespace PK
open Tn Spec Classical

/-- the inner product of two vectors of four numbers -/
theorem sum4_qdot (a b : Fin 4 → ℝ) : ∑ k, a k * b k = qdot (.ofVec a) (.ofVec b) := by
  rw [Fin.sum_univ_four]; rfl

theorem angularDistanceT_V (d : DType) (v : Device) {s1 s2 r : Shape} (a b : List ℕ → Fin 4 → ℝ) (h : bshape s1 s2 = .ok r) :
    quaternionAngularDistanceT (ofV (flTag d v) s1 4 a) (ofV (flTag d v) s2 4 b) =
      .ok (ofFn (flTag d v) r fun i =>
        if ∀ j, ValidIx j r → 1 - qdot (.ofVec (a (bidx s1 j))) (.ofVec (b (bidx s2 j))) ^ 2 < 1e-4 then 0
        else
          let c := |clampR (qdot (.ofVec (a (bidx s1 i))) (.ofVec (b (bidx s2 i)))) (-1) 1|
          2 * atan2 (Real.sqrt (1 - c ^ 2)) c) := by
  rw [quaternionAngularDistanceT, quaternionCloseT, sumProdT_V _ _ _ _ h]
  simp only [ok_bind, pure_ok, map_S, atan2T]
  rw [bin_S]
  simp only [ok_bind, map_S]
  rw [putWhere_nil _ _ _ _ (by rfl)]
  refine congrArg Except.ok (ofFn_congr fun i hi => ?_)
  simp only [allT_test, sum4_qdot]

/-! ## slerp -/

/-- a parameter that is a number, or a tensor that is broadcast to the shape `r` -/
def StepT.Fits (T : Tag) (r : Shape) : StepT → Prop
  | .num _ => True
  | .ten x => x.tag = T ∧ bshape x.shape r = .ok r

/-- the parameter for entry `i` of the batch -/
noncomputable def StepT.at (i : List ℕ) : StepT → ℝ
  | .num x => x
  | .ten x => x.get (bidx x.shape i)

section
variable {d : DType} {v : Device} {r : Shape} {t : StepT}

theorem StepT.fits_rest (h : t.Fits (flTag d v) r) : t.rest.Fits (flTag d v) r := by
  cases t with
  | num x => trivial
  | ten x =>
    obtain ⟨h1, h2⟩ := h
    refine ⟨?_, h2⟩
    show trig x.tag = _
    rw [h1, trig_fl]

theorem StepT.at_rest (h : t.Fits (flTag d v) r) {i : List ℕ} (hi : ValidIx i r) : t.rest.at i = 1 - t.at i := by
  cases t with
  | num x => rfl
  | ten x =>
    show (map (1 - ·) x).get (bidx x.shape i) = _
    rw [map, ofFn_get (bidx_left h.2 hi)]
    rfl

theorem StepT.timesFl_S (h : t.Fits (flTag d v) r) (θ : List ℕ → Fl) :
    t.timesFl (ofFn (flTag d v) r θ) = .ok (ofFn (flTag d v) r fun i => AD.mul (.fin (t.at i)) (θ i)) := by
  cases t with
  | num x =>
    refine congrArg Except.ok (ofFn_congr fun i hi => ?_)
    rw [ofFn_get (by exact hi)]
    rfl
  | ten x =>
    obtain ⟨h1, h2⟩ := h
    rw [StepT.timesFl, bin_bcast (a := toFl x) (t := flTag d v) (s := x.shape) (s' := r) _ rfl rfl h1 rfl h2]
    refine congrArg Except.ok (ofFn_congr fun i hi => ?_)
    rw [bidx_valid hi, ofFn_get hi, toFl, ofFn_get (bidx_left h2 hi)]
    rfl

theorem StepT.times_S (h : t.Fits (flTag d v) r) (f : List ℕ → ℝ) :
    t.times (ofFn (flTag d v) r f) = .ok (ofFn (flTag d v) r fun i => t.at i * f i) := by
  cases t with
  | num x =>
    rw [StepT.times, map_S]
    rfl
  | ten x =>
    obtain ⟨h1, h2⟩ := h
    rw [StepT.times, mul, bin_bcast (t := flTag d v) (s := x.shape) (s' := r) _ rfl rfl h1 rfl h2]
    refine congrArg Except.ok (ofFn_congr fun i hi => ?_)
    rw [bidx_valid hi, ofFn_get hi]
    rfl

theorem mapG_S {α : Type} [Inhabited α] (f : α → α) (T : Tag) (s : Shape) (a : List ℕ → α) :
    mapG f (ofFn T s a) = ofFn T s fun i => f (a i) :=
  ofFn_congr fun i hi => by rw [ofFn_get (by exact hi)]

theorem mapFl_S (f : ℝ → Fl) (d : DType) (v : Device) (s : Shape) (a : List ℕ → ℝ) :
    mapFl f (ofFn (flTag d v) s a) = ofFn (flTag d v) s fun i => f (a i) :=
  ofFn_congr fun i hi => by rw [ofFn_get (by exact hi)]

theorem toFl_V (T : Tag) (s : Shape) (n : ℕ) (a : List ℕ → Fin n → ℝ) : toFl (ofV T s n a) = ofV T s n fun i k => .fin (a i k) := by
  refine eq_ofV rfl rfl fun i k hk hi => ?_
  rw [toFl, ofFn_get (by exact validIx_snoc.2 ⟨hi, hk⟩), ofV_get hi hk]

/-- one weight, as the code computes it -/
noncomputable def weightFl (t : ℝ) (c : ℝ) : Fl :=
  AD.div (AD.lift Real.sin (AD.mul (.fin t) (AD.acos (.fin c)))) (AD.lift Real.sin (AD.acos (.fin c)))

theorem slerpWeightT_S (h : t.Fits (flTag d v) r) (c : List ℕ → ℝ) :
    slerpWeightT t (mapFl (fun c => AD.acos (.fin c)) (ofFn (flTag d v) r c))
      (mapG (AD.lift Real.sin) (mapFl (fun c => AD.acos (.fin c)) (ofFn (flTag d v) r c))) =
      .ok (ofFn (flTag d v) r fun i => weightFl (t.at i) (c i)) := by
  rw [slerpWeightT, mapFl_S, StepT.timesFl_S h, ok_bind, mapG_S, mapG_S, bin_S]
  rfl

theorem weightFl_rest (h : t.Fits (flTag d v) r) (c : List ℕ → ℝ) :
    (ofFn (flTag d v) r fun i => weightFl (t.rest.at i) (c i)) = ofFn (flTag d v) r fun i => weightFl (1 - t.at i) (c i) :=
  ofFn_congr fun i hi => by rw [StepT.at_rest h hi]

theorem colNone_1 (T : Tag) (N : ℕ) (w : List ℕ → Fl) : colNone (ofFn T [N] w) = .ok (ofV T [N] 1 fun i _ => w i) := by
  refine congrArg Except.ok (eq_ofV rfl rfl fun i k hk hi => ?_)
  obtain ⟨n, rfl⟩ := valid1_cases hi
  rw [unsqueezeAt, ofFn_get (by exact valid2.2 ⟨n.2, hk⟩)]
  exact ofFn_get hi

theorem sphericalT_1 {N : ℕ} {s1 s2 : Shape} (hs : bshape [N] s1 = .ok [N]) (hs2 : bshape [N] s2 = .ok [N])
    (a b : List ℕ → Fin 4 → ℝ) (c : List ℕ → ℝ) (h : t.Fits (flTag d v) [N]) :
    sphericalT (ofV (flTag d v) s1 4 a) (ofV (flTag d v) s2 4 b) (ofFn (flTag d v) [N] c) t =
      .ok (ofV (flTag d v) [N] 4 fun i k => Fl.add (AD.mul (weightFl (1 - t.at i) (c i)) (.fin (a (bidx s1 i) k)))
        (AD.mul (weightFl (t.at i) (c i)) (.fin (b (bidx s2 i) k)))) := by
  rw [sphericalT, slerpWeightT_S (StepT.fits_rest h), ok_bind, slerpWeightT_S h, ok_bind, weightFl_rest h, colNone_1, ok_bind,
    toFl_V, bin_1VB _ _ _ _ _ hs, ok_bind, colNone_1, ok_bind, toFl_V, bin_1VB _ _ _ _ _ hs2, ok_bind, bin_V]
  refine congrArg Except.ok (eq_ofV rfl rfl fun i k hk hi => ?_)
  rw [ofV_get hi hk, bidx_valid hi]

/-- the inner products of the pairs of a batch -/
noncomputable def pairDot (s1 s2 : Shape) (a b : List ℕ → Fin 4 → ℝ) (i : List ℕ) : ℝ :=
  qdot (.ofVec (a (bidx s1 i))) (.ofVec (b (bidx s2 i)))

theorem sumProdT_4 (T : Tag) {s1 s2 : Shape} (a b : List ℕ → Fin 4 → ℝ) (h : bshape s1 s2 = .ok r) :
    sumProdT (ofV T s1 4 a) (ofV T s2 4 b) = .ok (ofFn T r (pairDot s1 s2 a b)) := by
  rw [sumProdT_V _ _ _ _ h]
  simp only [sum4_qdot]
  rfl

theorem negWhere_abs (T : Tag) (c : List ℕ → ℝ) :
    negWhere (ofFn T r c) (test (· < 0) (ofFn T r c)) = .ok (ofFn T r fun i => |c i|) := by
  rw [negWhere, putWhere_S _ _ _ _ (by rfl)]
  refine congrArg Except.ok (ofFn_congr fun i hi => ?_)
  rw [test_get hi, ofFn_get hi]
  by_cases h0 : c i < 0
  · rw [if_pos (by simpa using h0), abs_of_neg h0]
  · rw [if_neg (by simpa using h0), abs_of_nonneg (not_lt.1 h0)]

theorem negWhere_V (T : Tag) (c : List ℕ → ℝ) (b : List ℕ → Fin 4 → ℝ) :
    negWhere (ofV T r 4 b) (test (· < 0) (ofFn T r c)) = .ok (ofV T r 4 fun i k => if c i < 0 then -b i k else b i k) := by
  rw [negWhere, putWhere_V _ _ _ _ _ (by rfl)]
  refine congrArg Except.ok (eq_ofV rfl rfl fun i k hk hi => ?_)
  rw [ofV_get hi hk, ofV_get hi hk, test_get hi]
  by_cases h0 : c i < 0
  · rw [if_pos (by simpa using h0), if_pos h0]
  · rw [if_neg (by simpa using h0), if_neg h0]

/-- the second quaternions after the call -/
noncomputable def flipped (s1 s : Shape) (a b : List ℕ → Fin 4 → ℝ) (i : List ℕ) (k : Fin 4) : ℝ :=
  if qdot (.ofVec (a (bidx s1 i))) (.ofVec (b i)) < 0 then -b i k else b i k

theorem flipped_congr (T : Tag) (s1 : Shape) (a b : List ℕ → Fin 4 → ℝ) :
    (ofV T r 4 fun i k => if pairDot s1 r a b i < 0 then -b i k else b i k) = ofV T r 4 (flipped s1 r a b) := by
  refine eq_ofV rfl rfl fun i k hk hi => ?_
  rw [ofV_get hi hk, pairDot, bidx_valid hi, flipped]

theorem quaternionSlerpT_V (T : Tag) {s1 : Shape} (a b : List ℕ → Fin 4 → ℝ) (h : bshape s1 r = .ok r) (t : StepT) :
    quaternionSlerpT (ofV T s1 4 a) (ofV T r 4 b) t =
      (slerpTail (ofV T s1 4 a) (ofV T r 4 (flipped s1 r a b)) (ofFn T r fun i => |pairDot s1 r a b i|) t,
        ofV T r 4 (flipped s1 r a b)) := by
  rw [quaternionSlerpT, sumProdT_4 _ _ _ h]
  simp only
  rw [negWhere_V, negWhere_abs, flipped_congr]
  rfl

theorem slerpTail_far (T : Tag) (q1 q2 : Tn ℝ) (c : List ℕ → ℝ) (t : StepT) (h : ∃ i, ValidIx i r ∧ c i ≤ 1 - 1e-6) :
    slerpTail q1 q2 (ofFn T r c) t = sphericalT q1 q2 (ofFn T r c) t := by
  rw [slerpTail, if_neg]
  rw [allT_test]
  obtain ⟨i, hi, h⟩ := h
  exact fun g => absurd (g i hi) (not_lt.2 h)

theorem slerpTail_near (T : Tag) (q1 q2 : Tn ℝ) (c : List ℕ → ℝ) (t : StepT) (h : ∀ i, ValidIx i r → 1 - 1e-6 < c i) :
    slerpTail q1 q2 (ofFn T r c) t = lerpT q1 q2 t := by
  rw [slerpTail, if_pos]
  rwa [allT_test]

/-- `t * x` for a batch of vectors -/
theorem StepT.times_V {n : ℕ} (h : t.Fits (flTag d v) (r ++ [n])) (f : List ℕ → Fin n → ℝ) :
    t.times (ofV (flTag d v) r n f) = .ok (ofV (flTag d v) r n fun i k => t.at (i ++ [k.val]) * f i k) := by
  have e : ofV (flTag d v) r n f = ofFn (flTag d v) (r ++ [n]) (ofV (flTag d v) r n f).get := eq_ofS rfl rfl fun _ _ => rfl
  rw [e, StepT.times_S h]
  refine congrArg Except.ok (eq_ofV rfl rfl fun i k hk hi => ?_)
  rw [ofFn_get (validIx_snoc.2 ⟨hi, hk⟩), ofV_get hi hk]

theorem lerpT_V {s1 : Shape} (hs : bshape s1 r = .ok r) (a b : List ℕ → Fin 4 → ℝ) (h : t.Fits (flTag d v) (r ++ [4])) :
    lerpT (ofV (flTag d v) s1 4 a) (ofV (flTag d v) r 4 b) t =
      .ok (ofV (flTag d v) r 4 fun i k => .fin (a (bidx s1 i) k + t.at (i ++ [k.val]) * (b i k - a (bidx s1 i) k))) := by
  rw [lerpT, sub, bin_VB _ _ _ _ _ ((bshape_comm _ _).trans hs), ok_bind, StepT.times_V h, ok_bind, add, bin_VB _ _ _ _ _ hs,
    ok_bind, toFl_V, pure_ok]
  refine congrArg Except.ok (eq_ofV rfl rfl fun i k hk hi => ?_)
  rw [ofV_get hi hk, bidx_valid hi, bidx_valid hi]

/-- a weight of a pair that is not parallel -/
theorem weightFl_fin {c : ℝ} (t : ℝ) (h0 : 0 ≤ c) (h1 : c < 1) :
    weightFl t c = .fin (Real.sin (t * Real.arccos c) / Real.sin (Real.arccos c)) := by
  have hs : 0 < Real.sin (Real.arccos c) := by
    rw [Real.sin_arccos]; exact Real.sqrt_pos.2 (by nlinarith)
  have e : AD.acos (.fin c) = .fin (Real.arccos c) := if_neg (by rintro (h | h) <;> linarith)
  rw [weightFl, e]
  exact if_neg hs.ne'

/-- a weight of a parallel pair: zero by zero -/
theorem weightFl_one (t : ℝ) : weightFl t 1 = .nan := by
  have e : AD.acos (.fin 1) = .fin (Real.arccos 1) := if_neg (by rintro (h | h) <;> linarith)
  rw [weightFl, e, Real.arccos_one]
  show AD.div (.fin (Real.sin (t * 0))) (.fin (Real.sin 0)) = _
  rw [mul_zero, Real.sin_zero]
  show (if (0 : ℝ) = 0 then AD.infTimes 0 else _) = _
  rw [if_pos rfl]
  simp [AD.infTimes]

/-! ## acos -/

theorem acosExtrapT_S {b : Bound} {l u : ℝ} (hb : b.unpack = (l, u)) (h0 : -1 < l) (hlu : l ≤ u) (h1 : u < 1)
    (junk : List ℕ → ℝ) (T : Tag) (f : List ℕ → ℝ) :
    acosLinearExtrapolationT junk (ofFn T r f) b = .ok (ofFn T r fun i => acosExtrapElem l u (f i)) := by
  rw [acosLinearExtrapolationT, hb]
  simp only
  rw [if_neg (not_lt.2 hlu), if_neg (by rintro (h | h) <;> linarith), andB, notB, notB, test_S, test_S, mapG_S, mapG_S, bin_S, ok_bind,
    putWhere_S _ _ _ _ (by rfl), ok_bind, putWhere_S _ _ _ _ (by rfl), ok_bind, putWhere_S _ _ _ _ (by rfl)]
  refine congrArg Except.ok (ofFn_congr fun i hi => ?_)
  replace hi : ValidIx i r := hi
  rw [ofFn_get hi, ofFn_get hi, ofFn_get hi, ofFn_get hi, acosExtrapElem]
  simp only [decide_eq_true_eq, Bool.and_eq_true, Bool.not_eq_true', decide_eq_false_iff_not]
  split_ifs <;> first | rfl | (exfalso; tauto)

end
end PK
