import Verif.Lemmas.TensorT3
import Verif.Lemmas.TensorRot

/-!
# Slices, writes, inverses and constructors on tensors with three dimensions
-/

namespace PK.Tn
open Classical Spec

section
variable {t : Tag} {n m p q k : ℕ} {f g : ℕ → ℕ → ℕ → ℝ}

theorem transposeLast_box : transposeLast (box t n p q f) = .ok (box t n q p fun i j l => f i l j) := by
  refine congrArg Except.ok (eq_box rfl rfl fun i hi j hj l hl => ?_)
  refine (ofFn_get (valid3.2 ⟨hi, hj, hl⟩)).trans ?_
  exact box_get hi hl hj

theorem permute_box : permute (box t n p q f) [0, 2, 1] = .ok (box t n q p fun i j l => f i l j) := by
  rw [permute, if_pos (by show List.Perm [0, 2, 1] [0, 1, 2]; decide)]
  refine congrArg Except.ok (eq_box rfl rfl fun i hi j hj l hl => ?_)
  refine (ofFn_get (valid3.2 ⟨hi, hj, hl⟩)).trans ?_
  exact box_get hi hl hj

theorem sliceRows_box {a : ℕ} (h : a ≤ p) : sliceRows (box t n p q f) a = .ok (box t n a q f) := by
  have : min a p = a := by omega
  refine congrArg Except.ok (eq_box (by show [n, min a p, q] = _; rw [this]) rfl fun i hi j hj l hl => ?_)
  refine (ofFn_get (valid3.2 ⟨hi, by omega, hl⟩)).trans ?_
  exact box_get hi (by omega) hl

theorem sliceLast_box {a b : ℕ} (h : b ≤ q) :
    sliceLast (box t n p q f) a b = .ok (box t n p (b - a) fun i j l => f i j (a + l)) := by
  have : min b q = b := by omega
  refine congrArg Except.ok (eq_box (by show [n, p, min b q - a] = _; rw [this]) rfl fun i hi j hj l hl => ?_)
  refine (ofFn_get (valid3.2 ⟨hi, hj, by show l < min b q - a; omega⟩)).trans ?_
  show (box t n p q f).get [i, j, a + l] = _
  exact box_get hi hj (by omega)

theorem selectLast_box {c : ℕ} (h : c < q) : selectLast (box t n p q f) c = .ok (flatB t n p fun i j => f i j c) := by
  show (if c < q then _ else _) = _
  rw [if_pos h]
  refine congrArg Except.ok (eq_flatB rfl rfl fun i hi j hj => ?_)
  refine (ofFn_get (valid2.2 ⟨hi, hj⟩)).trans ?_
  exact box_get hi hj h

theorem selectLast_flat {f : ℕ → ℕ → ℝ} {c : ℕ} (h : c < p) : selectLast (flatB t n p f) c = .ok (lineB t n fun i => f i c) := by
  show (if c < p then _ else _) = _
  rw [if_pos h]
  refine congrArg Except.ok (eq_lineB rfl rfl fun i hi => ?_)
  refine (ofFn_get (valid1.2 hi)).trans ?_
  exact flatB_get hi h

theorem unsqueeze_flat (f : ℕ → ℕ → ℝ) : unsqueeze (flatB t n p f) = box t n p 1 fun i j _ => f i j := by
  refine eq_box rfl rfl fun i hi j hj l hl => ?_
  refine (ofFn_get (valid3.2 ⟨hi, hj, hl⟩)).trans ?_
  exact flatB_get hi hj

theorem squeezeLast_box : squeezeLast (box t n p 1 f) = flatB t n p fun i j => f i j 0 := by
  rw [squeezeLast, if_pos (by rfl)]
  refine eq_flatB rfl rfl fun i hi j hj => ?_
  refine (ofFn_get (valid2.2 ⟨hi, hj⟩)).trans ?_
  exact box_get hi hj (by omega)

theorem map_box {d : DType} {v : Device} (h : ℝ → ℝ) :
    map h (box (flTag d v) n p q f) = box (flTag d v) n p q fun i j l => h (f i j l) := by
  refine eq_box rfl rfl fun i hi j hj l hl => ?_
  refine (ofFn_get (valid3.2 ⟨hi, hj, hl⟩)).trans ?_
  rw [box_get hi hj hl]

theorem setBlock_box {a b : ℕ} (ha : a ≤ p) (hb : b ≤ q) {t' : Tag} :
    setBlock (box t n p q f) a b (box t' n a b g) = .ok (box t n p q fun i j l => if j < a ∧ l < b then g i j l else f i j l) := by
  show (if a ≤ p ∧ b ≤ q then _ else _) = _
  rw [if_pos ⟨ha, hb⟩]
  show (valueFor (box t' n a b g) [n, a, b] >>= _) = _
  rw [valueFor_same (by rfl), ok_bind, pure_ok]
  refine congrArg Except.ok (eq_box rfl rfl fun i hi j hj l hl => ?_)
  refine (ofFn_get (valid3.2 ⟨hi, hj, hl⟩)).trans ?_
  show (if j < a ∧ l < b then (box t' n a b g).get [i, j, l] else (box t n p q f).get [i, j, l]) = _
  split_ifs with h
  · exact box_get hi h.1 h.2
  · exact box_get hi hj hl

theorem setColumn_box {a c : ℕ} (ha : a ≤ p) (hc : c < q) {t' : Tag} {g : ℕ → ℕ → ℝ} :
    setColumn (box t n p q f) a c (flatB t' n a g) = .ok (box t n p q fun i j l => if j < a ∧ l = c then g i j else f i j l) := by
  show (if c < q then _ else _) = _
  rw [if_pos hc, if_pos ha]
  show (valueFor (flatB t' n a g) [n, a] >>= _) = _
  rw [valueFor_same (by rfl), ok_bind, pure_ok]
  refine congrArg Except.ok (eq_box rfl rfl fun i hi j hj l hl => ?_)
  refine (ofFn_get (valid3.2 ⟨hi, hj, hl⟩)).trans ?_
  show (if j < a ∧ l = c then (flatB t' n a g).get [i, j] else (box t n p q f).get [i, j, l]) = _
  split_ifs with h
  · exact flatB_get hi h.1
  · exact box_get hi hj hl

theorem matmulT_box : matmulT (box t n p k f) (box t n k q g) =
    .ok (box t n p q fun i j l => ∑ x ∈ Finset.range k, f i j x * g i x l) := by
  show (if k = k then _ else _) = _
  rw [if_pos rfl]
  show (bshape [n] [n] >>= _) = _
  rw [bshape_self, ok_bind]
  simp only [box_tag, PK.matmul, if_true, ok_bind, pure_ok]
  refine congrArg Except.ok (eq_box rfl rfl fun i hi j hj l hl => ?_)
  refine (ofFn_get (valid3.2 ⟨hi, hj, hl⟩)).trans (Finset.sum_congr rfl fun x hx => ?_)
  have hx := Finset.mem_range.1 hx
  show (box t n p k f).get (bidx [n] [i] ++ [j] ++ [x]) * (box t n k q g).get (bidx [n] [i] ++ [x] ++ [l]) = _
  rw [bidx_valid (validIx_one_iff.2 hi)]
  exact congrArg₂ _ (box_get hi hj hx) (box_get hi hx hl)

/-! ## Reshapes -/

theorem reshape_self_box : reshape (box t n p q f) [n, p, q] = .ok (box t n p q f) := by
  obtain ⟨x, hx, hs, ht, hg⟩ := reshape_at (a := box t n p q f) (s := [n, p, q]) rfl
  rw [hx]
  refine congrArg Except.ok (eq_box hs ht fun i hi j hj l hl => ?_)
  rw [hg _ [i, j, l] (valid3.2 ⟨hi, hj, hl⟩) (valid3.2 ⟨hi, hj, hl⟩) rfl]
  exact box_get hi hj hl

theorem reshape_box1 : reshape (box t 1 p q f) [p, q] = .ok (flatB t p q fun j l => f 0 j l) := by
  obtain ⟨x, hx, hs, ht, hg⟩ := reshape_at (a := box t 1 p q f) (s := [p, q]) (by simp)
  rw [hx]
  refine congrArg Except.ok (eq_flatB hs ht fun j hj l hl => ?_)
  rw [hg _ [0, j, l] (valid2.2 ⟨hj, hl⟩) (valid3.2 ⟨by omega, hj, hl⟩) (by simp [ravel])]
  exact box_get (by omega) hj hl

theorem reshapeInfer_box (hp : 0 < p) (hq : 0 < q) : reshapeInfer (box t n p q f) [p, q] = .ok (box t n p q f) := by
  rw [reshapeInfer_eq (n := n) (by simp [hp, hq]) (by simp)]
  exact reshape_self_box

theorem reshapeInfer_flat {f : ℕ → ℕ → ℝ} (hp : 0 < p) (hq : 0 < q) :
    reshapeInfer (flatB t p q f) [p, q] = .ok (box t 1 p q fun _ => f) := by
  rw [reshapeInfer_eq (n := 1) (by simp [hp, hq]) (by simp)]
  obtain ⟨x, hx, hs, ht, hg⟩ := reshape_at (a := flatB t p q f) (s := [1, p, q]) (by simp)
  rw [hx]
  refine congrArg Except.ok (eq_box hs ht fun i hi j hj l hl => ?_)
  rw [hg _ [j, l] (valid3.2 ⟨hi, hj, hl⟩) (valid2.2 ⟨hj, hl⟩) (by obtain rfl : i = 0 := by omega
                                                                  simp [ravel])]
  exact flatB_get hj hl

/-- `t.reshape(-1, p, 1)` of a tensor of rows -/
theorem reshapeInfer_rows {f : ℕ → ℕ → ℝ} (hp : 0 < p) :
    reshapeInfer (flatB t n p f) [p, 1] = .ok (box t n p 1 fun i j _ => f i j) := by
  rw [reshapeInfer_eq (n := n) (by simp [hp]) (by simp)]
  obtain ⟨x, hx, hs, ht, hg⟩ := reshape_at (a := flatB t n p f) (s := [n, p, 1]) (by simp)
  rw [hx]
  refine congrArg Except.ok (eq_box hs ht fun i hi j hj l hl => ?_)
  rw [hg _ [i, j] (valid3.2 ⟨hi, hj, hl⟩) (valid2.2 ⟨hi, hj⟩) (by obtain rfl : l = 0 := by omega
                                                                  simp [ravel])]
  exact flatB_get hi hj

/-- `t.reshape(-1, p, 1)` of one row -/
theorem reshapeInfer_line {f : ℕ → ℝ} (hp : 0 < p) :
    reshapeInfer (lineB t p f) [p, 1] = .ok (box t 1 p 1 fun _ j _ => f j) := by
  rw [reshapeInfer_eq (n := 1) (by simp [hp]) (by simp)]
  obtain ⟨x, hx, hs, ht, hg⟩ := reshape_at (a := lineB t p f) (s := [1, p, 1]) (by simp)
  rw [hx]
  refine congrArg Except.ok (eq_box hs ht fun i hi j hj l hl => ?_)
  rw [hg _ [j] (valid3.2 ⟨hi, hj, hl⟩) (valid1.2 hj) (by obtain rfl : l = 0 := by omega
                                                         obtain rfl : i = 0 := by omega
                                                         simp [ravel])]
  exact lineB_get hj

theorem ofMatrix_box : T3T.ofMatrix (box t n 4 4 f) = .ok ⟨.plain, box t n 4 4 f, t.dt, t.dev⟩ := by
  show (initMatrixT (some (box t n 4 4 f)) 1 .f32 cpu >>= _) = _
  have : initMatrixT (some (box t n 4 4 f)) 1 .f32 cpu = .ok (box t n 4 4 f) := by
    rw [initMatrixT]
    rw [if_neg (by simp)]
    exact reshapeInfer_box (p := 4) (q := 4) (by omega) (by omega)
  rw [this, ok_bind]
  rfl

theorem ofMatrix_flat {f : ℕ → ℕ → ℝ} :
    T3T.ofMatrix (flatB t 4 4 f) = .ok ⟨.plain, box t 1 4 4 fun _ => f, t.dt, t.dev⟩ := by
  show (initMatrixT (some (flatB t 4 4 f)) 1 .f32 cpu >>= _) = _
  have : initMatrixT (some (flatB t 4 4 f)) 1 .f32 cpu = .ok (box t 1 4 4 fun _ => f) := by
    rw [initMatrixT]
    rw [if_neg (by simp)]
    exact reshapeInfer_flat (p := 4) (q := 4) (by omega) (by omega)
  rw [this, ok_bind]
  rfl

/-! ## Inverses -/

theorem invertMatrixT_box {d : DType} {v : Device} : invertMatrixT (box (flTag d v) n 4 4 f) =
    .ok (box (flTag d v) n 4 4 fun i j l =>
      if j < 3 ∧ l = 3 then ∑ x ∈ Finset.range 3, -(f i x j) * f i x 3 else if j < 3 ∧ l < 3 then f i l j else f i j l) := by
  rw [invertMatrixT, sliceRows_box (by omega), ok_bind, sliceLast_box (by omega), ok_bind, transposeLast_box, ok_bind,
    ok_bind, selectLast_box (by omega), ok_bind, setBlock_box (by omega) (by omega), ok_bind, sliceRows_box (by omega),
    ok_bind, sliceLast_box (by omega), ok_bind, map_box, unsqueeze_flat, matmulT_box, ok_bind, squeezeLast_box,
    setColumn_box (by omega) (by omega)]
  refine congrArg Except.ok (box_congr fun i hi j hj l hl => ?_)
  split_ifs with h1 h2
  · refine Finset.sum_congr rfl fun x hx => ?_
    have hx := Finset.mem_range.1 hx
    simp [h1.1, hx]
  · simp
  · rfl

theorem stackT_two (a b : Tag) (h : a.dev = b.dev) : stackT [a, b] = .ok ⟨a.dt.promote b.dt, a.dev⟩ := by
  show ([b].foldlM ew a) = _
  rw [List.foldlM_cons, ew, if_pos h]
  rfl

theorem stackT_two_error (a b : Tag) (h : a.dev ≠ b.dev) : stackT [a, b] = .error .runtimeError := by
  show ([b].foldlM ew a) = _
  rw [List.foldlM_cons, ew, if_neg h]
  rfl

theorem bshape_nn1 (n p q : ℕ) : bshape [n, p, q] [1, p, q] = .ok [n, p, q] := by
  rw [bshape_iff]
  simp only [List.reverse_cons, List.reverse_nil, List.nil_append, List.cons_append, bshapeR, ok_bind, if_true]
  by_cases h : n = 1
  · subst h; simp [ok_bind, pure_ok]
  · simp [h, ok_bind, pure_ok]

theorem bshape_npq1 (n p q : ℕ) : bshape [n, p, q] [n, p, 1] = .ok [n, p, q] := by
  rw [bshape_iff]
  simp only [List.reverse_cons, List.reverse_nil, List.nil_append, List.cons_append, bshapeR, ok_bind, if_true]
  by_cases h : q = 1
  · subst h; simp [ok_bind, pure_ok]
  · simp [h, ok_bind, pure_ok]

theorem invertTranslateT_box : invertTranslateT (box t n 4 4 f) =
    .ok (box t n 4 4 fun i j l => f i j l * if j < 3 ∧ l = 3 then -1 else 1) := by
  have hm : setColumn (full t [1, 4, 4] 1) 3 3 (full t [] (-1)) =
      .ok (box t 1 4 4 fun _ j l => if j < 3 ∧ l = 3 then -1 else 1) := by
    show (valueFor (full t [] (-1)) [1, 3] >>= _) = _
    have : valueFor (full t [] (-1)) [1, 3] = .ok (flatB t 1 3 fun _ _ => -1) := by
      rw [valueFor]
      simp only [full, ofFn_shape, List.length_nil, Nat.zero_sub, List.take_zero, List.all_nil, if_true, List.drop_zero, expand]
      rw [if_pos (bshape_nil_left _)]
      refine congrArg Except.ok (eq_flatB rfl rfl fun i hi j hj => ?_)
      refine (ofFn_get (valid2.2 ⟨hi, hj⟩)).trans ?_
      refine (ofFn_get (validIx_nil.2 rfl)).trans ?_
      exact ofFn_get (validIx_nil.2 rfl)
    rw [this, ok_bind, pure_ok]
    refine congrArg Except.ok (eq_box rfl rfl fun i hi j hj l hl => ?_)
    refine (ofFn_get (valid3.2 ⟨hi, hj, hl⟩)).trans ?_
    show (if j < 3 ∧ l = 3 then (flatB t 1 3 fun _ _ => (-1 : ℝ)).get [i, j] else _) = _
    split_ifs with h
    · exact flatB_get hi h.1
    · exact ofFn_get (valid3.2 ⟨hi, hj, hl⟩)
  rw [invertTranslateT, box_tag, hm, ok_bind, mul, bin]
  simp only [box_shape, box_tag]
  rw [bshape_nn1, ok_bind, resTag_self, ok_bind, pure_ok]
  refine congrArg Except.ok (eq_box rfl rfl fun i hi j hj l hl => ?_)
  refine (ofFn_get (valid3.2 ⟨hi, hj, hl⟩)).trans ?_
  rw [bidx3, bidx3, if_one hi, if_one hj, if_one hl, if_pos rfl, box_get hi hj hl, box_get (by omega) hj hl]

theorem entryOf_box {r c : ℕ} (hr : r < p) (hc : c < q) : entryOf (box t n p q f) r c = .ok (lineB t n fun i => f i r c) := by
  show (if r < p ∧ c < q then _ else _) = _
  rw [if_pos ⟨hr, hc⟩]
  refine congrArg Except.ok (eq_lineB rfl rfl fun i hi => ?_)
  refine (ofFn_get (valid1.2 hi)).trans ?_
  exact box_get hi hr hc

theorem invertScaleT_box {d : DType} {v : Device} : invertScaleT (box (flTag d v) n 4 4 f) =
    .ok (box (flTag d v) n 4 4 fun i j l => if j = l then 1 / f i j j else 0) := by
  have h1 : ((List.range 4).mapM fun i => entryOf (box (flTag d v) n 4 4 f) i i) =
      .ok [lineB (flTag d v) n fun i => f i 0 0, lineB (flTag d v) n fun i => f i 1 1, lineB (flTag d v) n fun i => f i 2 2,
        lineB (flTag d v) n fun i => f i 3 3] := by
    show [0, 1, 2, 3].mapM _ = _
    simp only [List.mapM_cons, List.mapM_nil]
    rw [entryOf_box (by omega) (by omega), entryOf_box (by omega) (by omega), entryOf_box (by omega) (by omega),
      entryOf_box (by omega) (by omega)]
    rfl
  rw [invertScaleT, h1, ok_bind]
  have h2 : stackLast [lineB (flTag d v) n fun i => f i 0 0, lineB (flTag d v) n fun i => f i 1 1,
      lineB (flTag d v) n fun i => f i 2 2, lineB (flTag d v) n fun i => f i 3 3] =
      .ok (flatB (flTag d v) n 4 fun i j => f i j j) := by
    rw [stackLast]
    rw [if_pos (by simp), tags_eq (t := flTag d v) (by simp) (by simp), ok_bind, pure_ok]
    refine congrArg Except.ok (eq_flatB rfl rfl fun i hi j hj => ?_)
    refine (ofFn_get (valid2.2 ⟨hi, hj⟩)).trans ?_
    interval_cases j <;> exact lineB_get hi
  rw [h2, ok_bind]
  have h3 : map (1 / ·) (flatB (flTag d v) n 4 fun i j => f i j j) = flatB (flTag d v) n 4 fun i j => 1 / f i j j := by
    refine eq_flatB rfl rfl fun i hi j hj => ?_
    refine (ofFn_get (valid2.2 ⟨hi, hj⟩)).trans ?_
    rw [flatB_get hi hj]
  rw [h3]
  refine congrArg Except.ok (eq_box rfl rfl fun i hi j hj l hl => ?_)
  refine (ofFn_get (valid3.2 ⟨hi, hj, hl⟩)).trans ?_
  show (if j = l then (flatB _ n 4 _).get [i, j] else 0) = _
  split_ifs
  · exact flatB_get hi hj
  · rfl

/-! ## Points -/

theorem cat_box {ta tb : Tag} {r : ℕ} (h : ta.dev = tb.dev) : cat (box ta n p q f) (box tb n p r g) =
    .ok (box ⟨ta.dt.promote tb.dt, ta.dev⟩ n p (q + r) fun i j l => if l < q then f i j l else g i j (l - q)) := by
  show (if [n, p] = [n, p] then _ else _) = _
  rw [if_pos rfl]
  show (stackT [ta, tb] >>= _) = _
  rw [stackT_two _ _ h, ok_bind, pure_ok]
  refine congrArg Except.ok (eq_box rfl rfl fun i hi j hj l hl => ?_)
  refine (ofFn_get (valid3.2 ⟨hi, hj, hl⟩)).trans ?_
  show (if l < q then (box ta n p q f).get [i, j, l] else (box tb n p r g).get [i, j, l - q]) = _
  split_ifs with hq
  · exact box_get hi hj hq
  · exact box_get hi hj (by omega)

theorem cat_box_error {ta tb : Tag} {r p' n' : ℕ} (h : ¬ (n = n' ∧ p = p')) :
    cat (box ta n p q f) (box tb n' p' r g) = .error .runtimeError := by
  show (if [n, p] = [n', p'] then _ else _) = _
  rw [if_neg (by simpa using h)]

theorem cat_box_devices {ta tb : Tag} {r : ℕ} (h : ta.dev ≠ tb.dev) :
    cat (box ta n p q f) (box tb n p r g) = .error .runtimeError := by
  show (if [n, p] = [n, p] then _ else _) = _
  rw [if_pos rfl]
  show (stackT [ta, tb] >>= _) = _
  rw [stackT_two_error _ _ h, error_bind]

theorem cat_flat {ta tb : Tag} {r : ℕ} {f g : ℕ → ℕ → ℝ} (h : ta.dev = tb.dev) : cat (flatB ta n q f) (flatB tb n r g) =
    .ok (flatB ⟨ta.dt.promote tb.dt, ta.dev⟩ n (q + r) fun i l => if l < q then f i l else g i (l - q)) := by
  show (if [n] = [n] then _ else _) = _
  rw [if_pos rfl]
  show (stackT [ta, tb] >>= _) = _
  rw [stackT_two _ _ h, ok_bind, pure_ok]
  refine congrArg Except.ok (eq_flatB rfl rfl fun i hi l hl => ?_)
  refine (ofFn_get (valid2.2 ⟨hi, hl⟩)).trans ?_
  show (if l < q then (flatB ta n q f).get [i, l] else (flatB tb n r g).get [i, l - q]) = _
  split_ifs with hq
  · exact flatB_get hi hq
  · exact flatB_get hi (by omega)

theorem cat_line {ta tb : Tag} {r : ℕ} {f g : ℕ → ℝ} (h : ta.dev = tb.dev) : cat (lineB ta q f) (lineB tb r g) =
    .ok (lineB ⟨ta.dt.promote tb.dt, ta.dev⟩ (q + r) fun l => if l < q then f l else g (l - q)) := by
  show (stackT [ta, tb] >>= _) = _
  rw [stackT_two _ _ h, ok_bind, pure_ok]
  refine congrArg Except.ok (eq_lineB rfl rfl fun l hl => ?_)
  refine (ofFn_get (valid1.2 hl)).trans ?_
  show (if l < q then (lineB ta q f).get [l] else (lineB tb r g).get [l - q]) = _
  split_ifs with hq
  · exact lineB_get hq
  · exact lineB_get (by omega)

theorem full_box {x : ℝ} : full t [n, p, q] x = box t n p q fun _ _ _ => x := rfl

theorem trueDiv_box : trueDiv (box t n p q f) (box t n p 1 g) = .ok (box (trig t) n p q fun i j l => f i j l / g i j 0) := by
  rw [trueDiv, div, bin]
  simp only [box_shape, box_tag]
  rw [bshape_npq1, ok_bind, resTag_self, ok_bind, pure_ok, ok_bind, pure_ok]
  refine congrArg Except.ok (eq_box rfl rfl fun i hi j hj l hl => ?_)
  refine (ofFn_get (valid3.2 ⟨hi, hj, hl⟩)).trans ?_
  refine (ofFn_get (valid3.2 ⟨hi, hj, hl⟩)).trans ?_
  rw [bidx3, bidx3, if_one hi, if_one hj, if_one hl, if_pos rfl, box_get hi hj hl, box_get hi hj (by omega)]

theorem box_last : (box t n p q f).shape.getLastD 0 = q := rfl

/-- A point in homogeneous coordinates -/
def homC (f : ℕ → ℕ → ℕ → ℝ) (i j x : ℕ) : ℝ := if x < 3 then f i j x else 1

/-- The points before the division -/
noncomputable def rawPts (rd : DType → ℝ → ℝ) (da db : Dt) (n m : ℕ) (f g : ℕ → ℕ → ℕ → ℝ) (i j l : ℕ) : ℝ :=
  ∑ x ∈ Finset.range 4, homC f (bcRow m i) j x * conv2 rd da db (g (bcRow n i) l x)

theorem pointsOut_box (rd : DType → ℝ → ℝ) {k : TKind} {a : Dt} {w : Device} {v : Device} {da : Dt} {db : Dt} (h : Compat m n) :
    T3T.pointsOut rd ⟨k, box ⟨db, v⟩ n 4 4 g, a, w⟩ (box ⟨da, v⟩ m p 3 f) none =
      .ok (box (trig ⟨da, v⟩) (bsize m n) p 3 fun i j l => rawPts rd da db n m f g i j l / rawPts rd da db n m f g i j 3) := by
  simp only [T3T.pointsOut, box_shape, box_tag]
  rw [full_box, cat_box rfl, ok_bind, transposeLast_box, ok_bind]
  simp only [promote_self]
  rw [broadcastBmm_box rd v da db h, ok_bind, box_last, sliceLast_box (by omega), ok_bind, sliceLast_box (by omega), ok_bind,
    trueDiv_box]
  refine congrArg Except.ok (box_congr fun i hi j hj l hl => ?_)
  simp only [rawPts, homC, Nat.zero_add, Nat.add_zero]

theorem pointsOut_eps_box (rd : DType → ℝ → ℝ) (e : ℝ) {k : TKind} {a : Dt} {w : Device} {v : Device} {da : DType} {db : Dt}
    (h : Compat m n) :
    T3T.pointsOut rd ⟨k, box ⟨db, v⟩ n 4 4 g, a, w⟩ (box (flTag da v) m p 3 f) (some e) =
      .ok (box (flTag da v) (bsize m n) p 3 fun i j l =>
        rawPts rd (.fl da) db n m f g i j l / clampDenom (some e) (rawPts rd (.fl da) db n m f g i j 3)) := by
  simp only [T3T.pointsOut, box_shape, box_tag]
  rw [full_box, cat_box rfl, ok_bind, transposeLast_box, ok_bind]
  simp only [promote_self]
  have hb := broadcastBmm_box (n := m) (m := n) (p := p) (k := 3 + 1) (q := 4)
    (f := fun i j l => if l < 3 then f i j l else 1) (g := fun i j l => g i l j) rd v (.fl da) db h
  rw [show (⟨(flTag da v).dt, (flTag da v).dev⟩ : Tag) = ⟨.fl da, v⟩ from rfl, hb, ok_bind, box_last, sliceLast_box (by omega),
    ok_bind, sliceLast_box (by omega), ok_bind, show (⟨.fl da, v⟩ : Tag) = flTag da v from rfl, map_box, trueDiv_box]
  refine congrArg Except.ok (box_congr fun i hi j hj l hl => ?_)
  simp only [rawPts, homC, Nat.zero_add, Nat.add_zero]

theorem transformPoints_of_box (rd : DType → ℝ → ℝ) (T : T3T) (eps : Option ℝ) :
    T.transformPoints rd (box t n p q f) eps = T.pointsOut rd (box t n p q f) eps := by
  rw [T3T.transformPoints, if_neg (by simp)]
  simp only [box_shape, List.length_cons, List.length_nil, Nat.zero_add, Nat.reduceAdd, Nat.reduceEqDiff, and_false, if_false]
  rcases T.pointsOut rd (box t n p q f) eps with e | r <;> rfl

/-- Points without a batch dimension -/
theorem transformPoints_flat (rd : DType → ℝ → ℝ) (T : T3T) {f : ℕ → ℕ → ℝ} (eps : Option ℝ) :
    T.transformPoints rd (flatB t p q f) eps = (T.pointsOut rd (box t 1 p q fun _ => f) eps >>= fun r =>
      if r.shape.head? = some 1 then reshape r [p, q] else .ok r) := by
  rw [T3T.transformPoints, if_pos (by rfl), unsqueezeAt_flat]
  simp only [flatB_shape, List.length_cons, List.length_nil, Nat.zero_add, Nat.reduceAdd, and_true, pure_ok]

end
end PK.Tn
