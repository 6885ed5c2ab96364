import Verif.Lemmas.TensorMath
import Verif.Props.BatchT3Build

/-!
# The functions of `so3.py` in `Model/TensorMath.lean` on batches of matrices
-/

namespace PK
open Tn Spec Classical

section
variable {d : DType} {v : Device} {N : ℕ}

/-- the tensor with the entries of a family -/
noncomputable def lineOf (T : Tag) (N : ℕ) (f : Fin N → ℝ) : Tn ℝ := lineB T N fun i => if h : i < N then f ⟨i, h⟩ else 0
/-- the tensor with the rows of a family -/
noncomputable def vecsOf (T : Tag) (N : ℕ) (f : Fin N → V3) : Tn ℝ :=
  ofV T [N] 3 fun i => if h : i.headD 0 < N then f ⟨i.headD 0, h⟩ else 0
/-- the tensor with the matrices of a family -/
noncomputable def matsOf (T : Tag) (N : ℕ) (f : Fin N → M3) : Tn ℝ :=
  box T N 3 3 fun i j l => if h : i < N ∧ j < 3 ∧ l < 3 then f ⟨i, h.1⟩ ⟨j, h.2.1⟩ ⟨l, h.2.2⟩ else 0

theorem lineOf_get {T : Tag} {f : Fin N → ℝ} (n : Fin N) : (lineOf T N f).get [n] = f n := by
  rw [lineOf, lineB_get n.2, dif_pos n.2]
theorem vecsOf_get {T : Tag} {f : Fin N → V3} (n : Fin N) (k : Fin 3) : (vecsOf T N f).get [n, k] = f n k := by
  have : (vecsOf T N f).get ([(n : ℕ)] ++ [k.val]) = f n k := by
    rw [vecsOf, ofV_get (valid1.2 n.2) k.2]
    show (if h : (n : ℕ) < N then f ⟨n, h⟩ else 0) _ = _
    rw [dif_pos n.2]
  exact this
theorem matsOf_get {T : Tag} {f : Fin N → M3} (n : Fin N) (j l : Fin 3) : (matsOf T N f).get [n, j, l] = f n j l := by
  rw [matsOf, box_get n.2 j.2 l.2, dif_pos ⟨n.2, j.2, l.2⟩]

theorem matsOf_matAt {T : Tag} {f : Fin N → M3} (n : Fin N) : matAt 3 3 (matsOf T N f) [n] = f n := by
  ext j l
  exact matsOf_get (T := T) n j l
theorem vecsOf_vecAt {T : Tag} {f : Fin N → V3} (n : Fin N) : vecAt 3 (vecsOf T N f) [n] = f n := by
  funext k
  exact vecsOf_get n k

theorem eq_lineOf {T : Tag} {a : Tn ℝ} {f : Fin N → ℝ} (hs : a.shape = [N]) (ht : a.tag = T) (h : ∀ n : Fin N, a.get [n] = f n) :
    a = lineOf T N f := eq_lineB hs ht fun i hi => by rw [dif_pos hi]; exact h ⟨i, hi⟩
theorem eq_vecsOf {T : Tag} {a : Tn ℝ} {f : Fin N → V3} (hs : a.shape = [N, 3]) (ht : a.tag = T)
    (h : ∀ (n : Fin N) (k : Fin 3), a.get [n, k] = f n k) : a = vecsOf T N f := by
  refine eq_ofV hs ht fun i k hk hi => ?_
  obtain ⟨n, rfl⟩ := valid1_cases hi
  show _ = (if h : (n : ℕ) < N then f ⟨n, h⟩ else 0) _
  rw [dif_pos n.2]
  exact h n ⟨k, hk⟩
theorem eq_matsOf {T : Tag} {a : Tn ℝ} {f : Fin N → M3} (hs : a.shape = [N, 3, 3]) (ht : a.tag = T)
    (h : ∀ (n : Fin N) (j l : Fin 3), a.get [n, j, l] = f n j l) : a = matsOf T N f :=
  eq_box hs ht fun i hi j hj l hl => by rw [dif_pos ⟨hi, hj, hl⟩]; exact h ⟨i, hi⟩ ⟨j, hj⟩ ⟨l, hl⟩

theorem HasMat.rows {T : Tag} {R : Tn ℝ} (h : HasMat R [N] 3 3 T) : R = matsOf T N fun n => matAt 3 3 R [n] :=
  eq_matsOf h.1 h.2 fun _ _ _ => rfl
theorem HasVec.rows {T : Tag} {x : Tn ℝ} (h : HasVec x [N] 3 T) : x = vecsOf T N fun n => vecAt 3 x [n] :=
  eq_vecsOf h.1 h.2 fun _ _ => rfl

/-! ## Elementwise operations -/

theorem map_lineOf (g : ℝ → ℝ) (f : Fin N → ℝ) : map g (lineOf (flTag d v) N f) = lineOf (flTag d v) N fun n => g (f n) := by
  refine eq_lineOf rfl rfl fun n => ?_
  rw [map, ofFn_get (by exact valid1.2 n.2), lineOf_get]
theorem bin_lineOf (g : ℝ → ℝ → ℝ) (T : Tag) (f f' : Fin N → ℝ) : bin g (lineOf T N f) (lineOf T N f') = .ok (lineOf T N fun n => g (f n) (f' n)) := by
  rw [lineOf, lineOf, lineB, lineB, bin_S]
  refine congrArg Except.ok (eq_lineOf rfl rfl fun n => ?_)
  rw [ofFn_get (valid1.2 n.2)]
  show g (if h : (n : ℕ) < N then f ⟨n, h⟩ else 0) (if h : (n : ℕ) < N then f' ⟨n, h⟩ else 0) = _
  rw [dif_pos n.2, dif_pos n.2]
theorem map_matsOf (g : ℝ → ℝ) (f : Fin N → M3) : map g (matsOf (flTag d v) N f) = matsOf (flTag d v) N fun n => .of fun j l => g (f n j l) := by
  refine eq_matsOf rfl rfl fun n j l => ?_
  rw [map, ofFn_get (by exact valid3.2 ⟨n.2, j.2, l.2⟩), matsOf_get]
  rfl
theorem bin_matsOf (g : ℝ → ℝ → ℝ) (T : Tag) (f f' : Fin N → M3) :
    bin g (matsOf T N f) (matsOf T N f') = .ok (matsOf T N fun n => .of fun j l => g (f n j l) (f' n j l)) := by
  rw [bin_same (t := T) (s := [N, 3, 3]) _ rfl rfl rfl rfl]
  refine congrArg Except.ok (eq_matsOf rfl rfl fun n j l => ?_)
  rw [ofFn_get (valid3.2 ⟨n.2, j.2, l.2⟩), matsOf_get, matsOf_get]
  rfl

theorem entryOf_matsOf (T : Tag) (f : Fin N → M3) (r c : Fin 3) : entryOf (matsOf T N f) r c = .ok (lineOf T N fun n => f n r c) := by
  rw [matsOf, entryOf_box r.2 c.2]
  refine congrArg Except.ok (eq_lineOf rfl rfl fun n => ?_)
  rw [lineB_get n.2, dif_pos ⟨n.2, r.2, c.2⟩]
theorem permute_matsOf (T : Tag) (f : Fin N → M3) : permute (matsOf T N f) [0, 2, 1] = .ok (matsOf T N fun n => (f n).transpose) := by
  rw [matsOf, permute_box]
  refine congrArg Except.ok (eq_matsOf rfl rfl fun n j l => ?_)
  rw [box_get n.2 j.2 l.2, dif_pos ⟨n.2, l.2, j.2⟩]
  rfl
theorem bmm_matsOf (T : Tag) (f f' : Fin N → M3) : bmm (matsOf T N f) (matsOf T N f') = .ok (matsOf T N fun n => f n * f' n) := by
  rw [matsOf, matsOf, bmm_box]
  refine congrArg Except.ok (eq_matsOf rfl rfl fun n j l => ?_)
  rw [box_get n.2 j.2 l.2, Matrix.mul_apply, Finset.sum_range]
  refine Finset.sum_congr rfl fun x _ => ?_
  rw [dif_pos ⟨n.2, j.2, x.2⟩, dif_pos ⟨n.2, x.2, l.2⟩]

/-- `w[:, None, None] * m` -/
theorem scaleRows_matsOf (T : Tag) (w : Fin N → ℝ) (f : Fin N → M3) :
    scaleRows (lineOf T N w) (matsOf T N f) = .ok (matsOf T N fun n => w n • f n) := by
  have hb : bshape [N, 1, 1] [N, 3, 3] = .ok [N, 3, 3] := by simp [bshape, bshapeR, ok_bind, pure_ok]
  rw [scaleRows, mul, bin_bcast (t := T) (s := [N, 1, 1]) (s' := [N, 3, 3]) _ rfl rfl rfl rfl hb]
  refine congrArg Except.ok (eq_matsOf rfl rfl fun n j l => ?_)
  have hv : ValidIx [(n : ℕ), (j : ℕ), (l : ℕ)] [N, 3, 3] := valid3.2 ⟨n.2, j.2, l.2⟩
  rw [ofFn_get hv, bidx_valid hv, matsOf_get]
  have e : bidx [N, 1, 1] [(n : ℕ), (j : ℕ), (l : ℕ)] = [(n : ℕ), 0, 0] := by
    rw [bidx3, if_pos rfl, if_pos rfl, if_one n.2]
  have h1 : (unsqueeze (unsqueeze (lineOf T N w))).get [(n : ℕ), 0, 0] = w n := by
    rw [unsqueeze, ofFn_get (by exact valid3.2 ⟨n.2, Nat.one_pos, Nat.one_pos⟩)]
    show (unsqueeze (lineOf T N w)).get [(n : ℕ), 0] = _
    rw [unsqueeze, ofFn_get (by exact valid2.2 ⟨n.2, Nat.one_pos⟩)]
    exact lineOf_get n
  rw [e, h1]
  rfl

theorem stack3_lineOf (f g h : Fin N → ℝ) :
    stackLast [lineOf (flTag d v) N f, lineOf (flTag d v) N g, lineOf (flTag d v) N h] =
      .ok (vecsOf (flTag d v) N fun n => ![f n, g n, h n]) := by
  rw [lineOf, lineOf, lineOf, stack3_line, wider_self, wider_self]
  refine congrArg Except.ok (eq_vecsOf rfl rfl fun n k => ?_)
  rw [flatB_get n.2 k.2]
  simp only [dif_pos n.2]
  fin_cases k <;> rfl

/-! ## The functions -/

theorem batchOf33_matsOf (T : Tag) (f : Fin N → M3) : batchOf33 (matsOf T N f) = .ok N := rfl

theorem phiCosT_matsOf (f : Fin N → M3) (eps : ℝ) :
    phiCosT (matsOf (flTag d v) N f) eps =
      if ∃ n, f n 0 0 + f n 1 1 + f n 2 2 < -1 - eps ∨ 3 + eps < f n 0 0 + f n 1 1 + f n 2 2 then .error .valueError
      else .ok (lineOf (flTag d v) N fun n => (f n 0 0 + f n 1 1 + f n 2 2 - 1) * 0.5) := by
  rw [phiCosT, batchOf33_matsOf, ok_bind]
  have e0 := entryOf_matsOf (flTag d v) f 0 0
  have e1 := entryOf_matsOf (flTag d v) f 1 1
  have e2 := entryOf_matsOf (flTag d v) f 2 2
  simp only [Fin.val_zero, Fin.val_one, Fin.val_two] at e0 e1 e2
  rw [e0, ok_bind, e1, ok_bind, add, bin_lineOf, ok_bind, e2, ok_bind, bin_lineOf, ok_bind]
  simp only [map_lineOf]
  have ht : ∀ (p : ℝ → Prop) (g : Fin N → ℝ), test p (lineOf (flTag d v) N g) = ofFn (eqT (flTag d v)) [N] fun i => decide (p ((lineOf (flTag d v) N g).get i)) :=
    fun p g => rfl
  rw [orB, ht, ht, bin_S, ok_bind]
  refine if_congr ?_ rfl rfl
  rw [anyAll, decide_eq_true_iff]
  constructor
  · rintro ⟨i, hi, h⟩
    obtain ⟨n, rfl⟩ := valid1_cases (n := N) hi
    rw [ofFn_get (by exact hi), lineOf_get, Bool.or_eq_true, decide_eq_true_iff, decide_eq_true_iff] at h
    exact ⟨n, h⟩
  · rintro ⟨n, h⟩
    refine ⟨[n], valid1.2 n.2, ?_⟩
    rw [ofFn_get (by exact valid1.2 n.2), lineOf_get, Bool.or_eq_true, decide_eq_true_iff, decide_eq_true_iff]
    exact h

theorem acosExtrapT_lineOf (junk : List ℕ → ℝ) (T : Tag) (f : Fin N → ℝ) (b : Bound) :
    acosLinearExtrapolationT junk (lineOf T N f) b = (acosLinearExtrapolation f b).map (lineOf T N) := by
  rcases hb : b.unpack with ⟨l, u⟩
  by_cases h1 : u < l
  · rw [acosLinearExtrapolationT, acosLinearExtrapolation, hb]
    simp only
    rw [if_pos h1, if_pos h1]
    rfl
  by_cases h2 : l ≤ -1 ∨ 1 ≤ u
  · rw [acosLinearExtrapolationT, acosLinearExtrapolation, hb]
    simp only
    rw [if_neg h1, if_pos h2, if_neg h1, if_pos h2]
    rfl
  rw [not_or, not_le, not_le] at h2
  rw [lineOf, lineB, acosExtrapT_S hb h2.1 (not_lt.1 h1) h2.2, acosLinearExtrapolation, hb]
  simp only
  rw [if_neg h1, if_neg (by rw [not_or, not_le, not_le]; exact h2)]
  refine congrArg Except.ok (eq_lineOf rfl rfl fun n => ?_)
  rw [ofFn_get (valid1.2 n.2)]
  show acosExtrapElem l u (if h : (n : ℕ) < N then f ⟨n, h⟩ else 0) = _
  rw [dif_pos n.2]

/-- `so3_rotation_angle`, unless `torch.acos` is used -/
theorem so3RotationAngleT_matsOf (junk : List ℕ → ℝ) (f : Fin N → M3) (eps : ℝ) (ca : Bool) (cb : ℝ) (h : ca = true ∨ 0 < cb) :
    so3RotationAngleT junk (matsOf (flTag d v) N f) eps ca cb =
      (so3RotationAngle f eps ca cb).map fun x => toFl (lineOf (flTag d v) N x) := by
  rw [so3RotationAngleT, phiCosT_matsOf, so3RotationAngle]
  simp only
  by_cases h1 : ∃ n, f n 0 0 + f n 1 1 + f n 2 2 < -1 - eps ∨ 3 + eps < f n 0 0 + f n 1 1 + f n 2 2
  · rw [if_pos h1, if_pos h1]
    rfl
  rw [if_neg h1, if_neg h1, ok_bind]
  by_cases h2 : ca = true
  · rw [if_pos h2, if_pos h2]
    rfl
  have h3 := h.resolve_left h2
  rw [if_neg h2, if_neg h2, if_pos h3, phiT, if_pos h3, acosExtrapT_lineOf]
  rcases acosLinearExtrapolation (fun n => (f n 0 0 + f n 1 1 + f n 2 2 - 1) * 0.5) (.scalar (1 - cb)) with e | x <;> rfl

theorem unbind_vecsOf (T : Tag) (f : Fin N → V3) :
    unbind (vecsOf T N f) = .ok [lineOf T N fun n => f n 0, lineOf T N fun n => f n 1, lineOf T N fun n => f n 2] := by
  have hk : ∀ k : Fin 3, (ofFn T [N] fun i => (vecsOf T N f).get (i ++ [k.val])) = lineOf T N fun n => f n k := by
    intro k
    refine eq_lineOf rfl rfl fun n => ?_
    rw [ofFn_get (valid1.2 n.2)]
    exact vecsOf_get n k
  have := congrArg₂ (fun a b => (Except.ok [a, b.1, b.2] : Except Err (List (Tn ℝ)))) (hk 0) (Prod.ext_iff.2 ⟨hk 1, hk 2⟩ : (_, _) = (_, _))
  exact this

theorem full_matsOf (T : Tag) : full T [N, 3, 3] 0 = matsOf T N fun _ => 0 := by
  refine eq_matsOf rfl rfl fun n j l => ?_
  exact ofFn_get (valid3.2 ⟨n.2, j.2, l.2⟩)

theorem setEntries_matsOf (T : Tag) (f : Fin N → M3) (r c : Fin 3) (g : Fin N → ℝ) :
    setEntries (matsOf T N f) r c (lineOf T N g) = .ok (matsOf T N fun n => .of fun j l => if j = r ∧ l = c then g n else f n j l) := by
  rw [matsOf, lineOf, setEntries_box r.2 c.2]
  refine congrArg Except.ok (eq_matsOf rfl rfl fun n j l => ?_)
  rw [box_get n.2 j.2 l.2, dif_pos n.2, dif_pos ⟨n.2, j.2, l.2⟩]
  simp only [Fin.val_inj, Fin.eta, Matrix.of_apply]

theorem hatT_vecsOf (f : Fin N → V3) : hatT (vecsOf (flTag d v) N f) = .ok (matsOf (flTag d v) N fun n => hatV (f n)) := by
  have hs : (vecsOf (flTag d v) N f).shape = [N, 3] := rfl
  have ht : (vecsOf (flTag d v) N f).tag = flTag d v := rfl
  unfold hatT
  simp only [hs, ht]
  rw [if_neg (by decide), unbind_vecsOf, ok_bind]
  show (do
    let h ← setEntries (full (flTag d v) [N, 3, 3] 0) (0 : Fin 3) (1 : Fin 3) (map (- ·) (lineOf (flTag d v) N fun n => f n 2))
    let h ← setEntries h (0 : Fin 3) (2 : Fin 3) (lineOf (flTag d v) N fun n => f n 1)
    let h ← setEntries h (1 : Fin 3) (0 : Fin 3) (lineOf (flTag d v) N fun n => f n 2)
    let h ← setEntries h (1 : Fin 3) (2 : Fin 3) (map (- ·) (lineOf (flTag d v) N fun n => f n 0))
    let h ← setEntries h (2 : Fin 3) (0 : Fin 3) (map (- ·) (lineOf (flTag d v) N fun n => f n 1))
    setEntries h (2 : Fin 3) (1 : Fin 3) (lineOf (flTag d v) N fun n => f n 0)) = _
  rw [map_lineOf, map_lineOf, map_lineOf, full_matsOf, setEntries_matsOf, ok_bind, setEntries_matsOf, ok_bind, setEntries_matsOf, ok_bind,
    setEntries_matsOf, ok_bind, setEntries_matsOf, ok_bind, setEntries_matsOf]
  refine congrArg Except.ok (congrArg _ (funext fun n => ?_))
  ext j l
  fin_cases j <;> fin_cases l <;> simp [hatV]

theorem hatInvT_matsOf (f : Fin N → M3) : hatInvT (matsOf (flTag d v) N f) = (hatInv f).map (vecsOf (flTag d v) N) := by
  rw [hatInvT, batchOf33_matsOf, ok_bind, permute_matsOf, ok_bind, add, bin_matsOf, ok_bind, map_matsOf, hatInv]
  simp only
  by_cases h0 : N = 0
  · rw [if_pos h0, if_pos h0]
    rfl
  rw [if_neg h0, if_neg h0]
  have hc : anyAll (test (1e-5 < ·) (matsOf (flTag d v) N fun n => .of fun j l =>
      |(Matrix.of fun j l => f n j l + (f n).transpose j l) j l|)) = true ↔ ∃ n i j, 1e-5 < |f n i j + f n j i| := by
    rw [anyAll, decide_eq_true_iff]
    constructor
    · rintro ⟨i, hi, h⟩
      obtain ⟨n, j, l, rfl⟩ := valid3_cases (n := N) (m := 3) (k := 3) hi
      rw [test, ofFn_get (by exact hi), decide_eq_true_iff, matsOf_get] at h
      exact ⟨n, j, l, h⟩
    · rintro ⟨n, j, l, h⟩
      refine ⟨[n, j, l], valid3.2 ⟨n.2, j.2, l.2⟩, ?_⟩
      rw [test, ofFn_get (by exact valid3.2 ⟨n.2, j.2, l.2⟩), decide_eq_true_iff, matsOf_get]
      exact h
  by_cases h1 : ∃ n i j, 1e-5 < |f n i j + f n j i|
  · rw [if_pos h1]
    exact if_pos (hc.2 h1)
  rw [if_neg h1]
  refine (if_neg (fun h => h1 (hc.1 h))).trans ?_
  have e0 := entryOf_matsOf (flTag d v) f 2 1
  have e1 := entryOf_matsOf (flTag d v) f 0 2
  have e2 := entryOf_matsOf (flTag d v) f 1 0
  simp only [Fin.val_zero, Fin.val_one, Fin.val_two] at e0 e1 e2
  rw [e0, ok_bind, e1, ok_bind, e2, ok_bind, stack3_lineOf]
  rfl

theorem sumProdT_vecsOf (f : Fin N → V3) : sumProdT (vecsOf (flTag d v) N f) (vecsOf (flTag d v) N f) =
    .ok (lineOf (flTag d v) N fun n => dot (f n) (f n)) := by
  rw [vecsOf, sumProdT_V _ _ _ _ (bshape_self [N])]
  refine congrArg Except.ok (eq_lineOf rfl rfl fun n => ?_)
  have hv : ValidIx [(n : ℕ)] [N] := valid1.2 n.2
  rw [ofFn_get hv, bidx_valid hv, Fin.sum_univ_three]
  show (if h : (n : ℕ) < N then f ⟨n, h⟩ else 0) 0 * (if h : (n : ℕ) < N then f ⟨n, h⟩ else 0) 0 +
    (if h : (n : ℕ) < N then f ⟨n, h⟩ else 0) 1 * (if h : (n : ℕ) < N then f ⟨n, h⟩ else 0) 1 +
    (if h : (n : ℕ) < N then f ⟨n, h⟩ else 0) 2 * (if h : (n : ℕ) < N then f ⟨n, h⟩ else 0) 2 = _
  rw [dif_pos n.2]
  rfl

theorem addEye_matsOf (f : Fin N → M3) : add (matsOf (flTag d v) N f) (unsqueezeAt (eyeN 3 (flTag d v)) 0) =
    .ok (matsOf (flTag d v) N fun n => f n + 1) := by
  rw [add, bin_bcast (t := flTag d v) (s := [N, 3, 3]) (s' := [1, 3, 3]) _ rfl rfl rfl rfl (bshape_nn1 N 3 3)]
  refine congrArg Except.ok (eq_matsOf rfl rfl fun n j l => ?_)
  have hv : ValidIx [(n : ℕ), (j : ℕ), (l : ℕ)] [N, 3, 3] := valid3.2 ⟨n.2, j.2, l.2⟩
  rw [ofFn_get hv, bidx_valid hv, matsOf_get]
  have e : bidx [1, 3, 3] [(n : ℕ), (j : ℕ), (l : ℕ)] = [0, (j : ℕ), (l : ℕ)] := by
    rw [bidx3, if_pos rfl, if_one j.2, if_one l.2]
  have h1 : (unsqueezeAt (eyeN 3 (flTag d v)) 0).get [0, (j : ℕ), (l : ℕ)] = (1 : M3) j l := by
    rw [unsqueezeAt, ofFn_get (by exact valid3.2 ⟨Nat.one_pos, j.2, l.2⟩)]
    show (eyeN 3 (flTag d v)).get [(j : ℕ), (l : ℕ)] = _
    rw [eyeN, ofFn_get (valid2.2 ⟨j.2, l.2⟩), Matrix.one_apply]
    simp only [List.headD_cons, List.getD_cons_succ, List.getD_cons_zero, Fin.val_inj]
  rw [e, h1]
  rfl

theorem so3ExpMapT_vecsOf (f : Fin N → V3) (eps : ℝ) :
    so3ExpMapT (vecsOf (flTag d v) N f) eps = .ok (matsOf (flTag d v) N fun n => so3ExpMap (f n) eps) := by
  have hs : (vecsOf (flTag d v) N f).shape = [N, 3] := rfl
  have ht : (vecsOf (flTag d v) N f).tag = flTag d v := rfl
  unfold so3ExpMapT
  simp only [hs, ht]
  rw [if_neg (by decide), sumProdT_vecsOf, ok_bind]
  simp only [map_lineOf, mul, bin_lineOf, ok_bind, hatT_vecsOf, bmm_matsOf, scaleRows_matsOf]
  rw [add, bin_matsOf, ok_bind]
  exact addEye_matsOf (d := d) (v := v) _

theorem so3LogMapT_matsOf (junk : List ℕ → ℝ) (f : Fin N → M3) (eps : ℝ) :
    so3LogMapT junk (matsOf (flTag d v) N f) eps = (so3LogMap f eps).map (vecsOf (flTag d v) N) := by
  rw [so3LogMapT, batchOf33_matsOf, ok_bind, phiCosT_matsOf, so3LogMap, so3RotationAngle]
  simp only
  by_cases h1 : ∃ n, f n 0 0 + f n 1 1 + f n 2 2 < -1 - 1e-4 ∨ 3 + 1e-4 < f n 0 0 + f n 1 1 + f n 2 2
  · rw [if_pos h1, if_pos h1]
    rfl
  rw [if_neg h1, if_neg h1, ok_bind, acosExtrapT_lineOf, if_neg (by decide), if_pos (by norm_num)]
  rcases acosLinearExtrapolation (fun n => (f n 0 0 + f n 1 1 + f n 2 2 - 1) * 0.5) (.scalar (1 - 1e-4)) with e | x
  · rfl
  show (do
    let fac ← div (lineOf (flTag d v) N x) (map (2 * ·) (map (phiDenom · eps) (lineOf (flTag d v) N x)))
    let p ← permute (matsOf (flTag d v) N f) [0, 2, 1]
    let s ← sub (matsOf (flTag d v) N f) p
    let r ← scaleRows fac s
    hatInvT r) = (hatInv fun n => (x n / (2 * phiDenom (x n) eps)) • (f n - (f n).transpose)).map _
  rw [map_lineOf, map_lineOf, div, bin_lineOf, ok_bind, permute_matsOf, ok_bind, sub, bin_matsOf, ok_bind, scaleRows_matsOf, ok_bind,
    hatInvT_matsOf]
  rfl

end
end PK
