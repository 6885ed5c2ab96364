import Verif.Lemmas.TensorT3Ops

/-!
# Constructors, `stack` and `__getitem__` on tensors with three dimensions
-/

namespace PK.Tn
open Classical Spec

section
variable {t : Tag} {n m p q k : ℕ} {f g : ℕ → ℕ → ℕ → ℝ}

theorem repeatT_box : repeatT (box t 1 p q f) [n, 1, 1] = .ok (box t n p q fun _ => f 0) := by
  have h : repeatT (box t 1 p q f) [n, 1, 1] = .ok (ofFn t [n * 1, 1 * p, 1 * q] fun i =>
      (box t 1 p q f).get ((List.zipWith (· % ·) i [1, p, q]).drop 0)) := rfl
  rw [h, mul_one, one_mul, one_mul]
  refine congrArg Except.ok (eq_box rfl rfl fun i hi j hj l hl => ?_)
  refine (ofFn_get (valid3.2 ⟨hi, hj, hl⟩)).trans ?_
  show (box t 1 p q f).get [i % 1, j % p, l % q] = _
  rw [Nat.mod_one, Nat.mod_eq_of_lt hj, Nat.mod_eq_of_lt hl]
  exact box_get (by omega) hj hl

/-- Entries of the identity matrix -/
def idE (j l : ℕ) : ℝ := if j = l then 1 else 0

theorem eyes4T_box : eyes4T t n = .ok (box t n 4 4 fun _ => idE) := by
  have : unsqueezeAt (eye4 t) 0 = box t 1 4 4 fun _ => idE := by
    refine eq_box rfl rfl fun i hi j hj l hl => ?_
    refine (ofFn_get (valid3.2 ⟨hi, hj, hl⟩)).trans ?_
    refine (ofFn_get (valid2.2 ⟨hj, hl⟩)).trans ?_
    simp [idE]
  rw [eyes4T, this, repeatT_box]

/-- `ones.repeat(n, 1)` -/
theorem ones_flat : repeatT (full t [1] 1) [n, 1] = .ok (flatB t n 1 fun _ _ => 1) := by
  have h : repeatT (full t [1] 1) [n, 1] = .ok (ofFn t [n * 1, 1 * 1] fun i =>
      (full t [1] 1).get ((List.zipWith (· % ·) i [1, 1]).drop 1)) := rfl
  rw [h, mul_one]
  refine congrArg Except.ok (eq_flatB rfl rfl fun i hi j hj => ?_)
  refine (ofFn_get (valid2.2 ⟨hi, hj⟩)).trans ?_
  show (full t [1] 1).get [j % 1] = 1
  rw [Nat.mod_one]
  exact ofFn_get (valid1.2 (by omega))

/-- `zeros.repeat(n, 1, 1)` -/
theorem zeros_box : repeatT (full t [1, 3] 0) [n, 1, 1] = .ok (box t n 1 3 fun _ _ _ => 0) := by
  have h : repeatT (full t [1, 3] 0) [n, 1, 1] = .ok (ofFn t [n * 1, 1 * 1, 1 * 3] fun i =>
      (full t [1, 3] 0).get ((List.zipWith (· % ·) i [1, 1, 3]).drop 1)) := rfl
  rw [h, mul_one, one_mul]
  refine congrArg Except.ok (eq_box rfl rfl fun i hi j hj l hl => ?_)
  refine (ofFn_get (valid3.2 ⟨hi, hj, hl⟩)).trans ?_
  show (full t [1, 3] 0).get [j % 1, l % 3] = 0
  rw [Nat.mod_one]
  exact ofFn_get (valid2.2 ⟨by omega, Nat.mod_lt _ (by omega)⟩)

/-- The dtype of the result of `torch.cat` -/
abbrev pro2 (a b : Tag) : Tag := ⟨a.dt.promote b.dt, a.dev⟩

/-- An entry of a matrix with the position `g` -/
def withP (f : ℕ → ℕ → ℕ → ℝ) (g : ℕ → ℕ → ℝ) (i j l : ℕ) : ℝ := if l < 3 then f i j l else if j < 3 then g i j else 1

theorem cat_pos {tm tp : Tag} {g : ℕ → ℕ → ℝ} (h : tm.dev = tp.dev) :
    (sliceLast (box tm n 4 4 f) 0 3 >>= fun a => cat a (box tp n 4 1 fun i j _ => if j < 3 then g i j else 1)) =
      .ok (box (pro2 tm tp) n 4 4 (withP f g)) := by
  rw [sliceLast_box (by omega), ok_bind, cat_box h]
  refine congrArg Except.ok (box_congr fun i hi j hj l hl => ?_)
  simp only [withP, Nat.zero_add]

theorem setPosT_line {d : DType} {v : Device} {tm tp : Tag} {g : ℕ → ℝ} (hm : tm.dev = v) (hp : tp.dev = v) :
    setPosT d v (box tm 1 4 4 f) (lineB tp 3 g) = .ok (box (pro2 tm (pro2 tp (flTag d v))) 1 4 4 (withP f fun _ => g)) := by
  rw [setPosT]
  simp only [lineB_shape, List.length_cons, List.length_nil, Nat.zero_add, Nat.reduceEqDiff, or_self, if_false]
  rw [pure_ok, ok_bind]
  have h1 : full (flTag d v) [1] 1 = lineB (flTag d v) 1 fun _ => 1 := rfl
  simp only [h1]
  rw [cat_line (by exact hp), ok_bind, reshapeInfer_line (by omega), ok_bind]
  exact cat_pos (n := 1) (g := fun _ => g) (tp := pro2 tp (flTag d v)) (by rw [hm]; exact hp.symm)

theorem setPosT_line_error {d : DType} {v : Device} {tm tp : Tag} {g : ℕ → ℝ} (hp : tp.dev = v) (hn : n ≠ 1) :
    setPosT d v (box tm n 4 4 f) (lineB tp 3 g) = .error .runtimeError := by
  rw [setPosT]
  simp only [lineB_shape, List.length_cons, List.length_nil, Nat.zero_add, Nat.reduceEqDiff, or_self, if_false]
  rw [pure_ok, ok_bind]
  have h1 : full (flTag d v) [1] 1 = lineB (flTag d v) 1 fun _ => 1 := rfl
  simp only [h1]
  rw [cat_line (by exact hp), ok_bind, reshapeInfer_line (by omega), ok_bind, sliceLast_box (by omega), ok_bind,
    cat_box_error (by omega)]

/-- The number of rows of the matrix after l.196 and l.211 -/
def rep (m n : ℕ) : ℕ := if 1 < m ∧ n = 1 then m else n

theorem box_row : box t n p q f = box t n p q fun i => f (bcRow n i) :=
  box_congr fun i hi j _ l _ => by
    have : bcRow n i = i := by unfold bcRow; split_ifs <;> omega
    rw [this]

theorem repeatRows_box : repeatRows m (box t n 4 4 f) = .ok (box t (rep m n) 4 4 fun i => f (bcRow n i)) := by
  rw [repeatRows]
  by_cases h : 1 < m ∧ n = 1
  · obtain ⟨h1, rfl⟩ := h
    rw [if_pos ⟨h1, rfl⟩, repeatT_box, rep, if_pos ⟨h1, rfl⟩]
    rfl
  · rw [if_neg (by simpa using h), rep, if_neg h, ← box_row]

theorem setPosT_flat {d : DType} {v : Device} {tm tp : Tag} {g : ℕ → ℕ → ℝ} (hm : tm.dev = v) (hp : tp.dev = v) :
    setPosT d v (box tm n 4 4 f) (flatB tp m 3 g) =
      if rep m n = m then .ok (box (pro2 tm (pro2 tp (flTag d v))) m 4 4 (withP (fun i => f (bcRow n i)) g)) else .error .runtimeError := by
  rw [setPosT]
  simp only [flatB_shape, List.length_cons, List.length_nil, Nat.zero_add, Nat.reduceAdd, true_or, if_true, List.headD_cons]
  rw [show ([m, 3] : List ℕ).dropLast ++ [1] = [m, 1] from rfl, ones_flat, ok_bind,
    repeatRows_box, ok_bind, pure_ok, ok_bind, cat_flat (by exact hp), ok_bind,
    reshapeInfer_rows (by omega), ok_bind]
  split_ifs with h
  · rw [h]
    exact cat_pos (n := m) (g := g) (tp := pro2 tp (flTag d v)) (by rw [hm]; exact hp.symm)
  · rw [sliceLast_box (by omega), ok_bind, cat_box_error (by omega)]

/-- An entry of a matrix with the rotation `g` -/
def withR (g f : ℕ → ℕ → ℕ → ℝ) (i j l : ℕ) : ℝ := if l < 3 then (if j < 3 then g i j l else 0) else f i j 3

theorem catRows_box {ta tb : Tag} (h : ta.dev = tb.dev) : catRows (box ta n p k f) (box tb n q k g) =
    .ok (box (pro2 ta tb) n (p + q) k fun i j l => if j < p then f i j l else g i (j - p) l) := by
  show (if k = k ∧ [n] = [n] then _ else _) = _
  rw [if_pos ⟨rfl, rfl⟩]
  show (stackT [ta, tb] >>= _) = _
  rw [stackT_two _ _ h, ok_bind, pure_ok]
  refine congrArg Except.ok (eq_box rfl rfl fun i hi j hj l hl => ?_)
  refine (ofFn_get (valid3.2 ⟨hi, hj, hl⟩)).trans ?_
  show (if j < p then (box ta n p k f).get [i, j, l] else (box tb n q k g).get [i, j - p, l]) = _
  split_ifs with hq
  · exact box_get hi hq hl
  · exact box_get hi (by omega) hl

theorem catRows_flat {ta tb : Tag} {f g : ℕ → ℕ → ℝ} (h : ta.dev = tb.dev) : catRows (flatB ta p k f) (flatB tb q k g) =
    .ok (flatB (pro2 ta tb) (p + q) k fun j l => if j < p then f j l else g (j - p) l) := by
  show (if k = k ∧ ([] : Shape) = [] then _ else _) = _
  rw [if_pos ⟨rfl, rfl⟩]
  show (stackT [ta, tb] >>= _) = _
  rw [stackT_two _ _ h, ok_bind, pure_ok]
  refine congrArg Except.ok (eq_flatB rfl rfl fun j hj l hl => ?_)
  refine (ofFn_get (valid2.2 ⟨hj, hl⟩)).trans ?_
  show (if j < p then (flatB ta p k f).get [j, l] else (flatB tb q k g).get [j - p, l]) = _
  split_ifs with hq
  · exact flatB_get hq hl
  · exact flatB_get (by omega) hl

theorem cat_rot {tm tr : Tag} (h : tr.dev = tm.dev) :
    (selectLast (box tm n 4 4 f) 3 >>= fun a => reshapeInfer a [4, 1] >>= fun b =>
      cat (box tr n 4 3 fun i j l => if j < 3 then g i j l else 0) b) = .ok (box (pro2 tr tm) n 4 4 (withR g f)) := by
  rw [selectLast_box (by omega), ok_bind, reshapeInfer_rows (by omega), ok_bind, cat_box h]
  refine congrArg Except.ok (box_congr fun i hi j hj l hl => ?_)
  simp only [withR]

/-- One rotation -/
theorem setRotT_flat {d : DType} {v : Device} {tm tr : Tag} {rot : Tn ℝ} {g : ℕ → ℕ → ℝ} (hr : rotMatrixT rot = .ok (flatB tr 3 3 g))
    (hm : tm.dev = v) (ht : tr.dev = v) : setRotT d v (box tm n 4 4 f) rot =
      if n = 1 then .ok (box (pro2 (pro2 tr (flTag d v)) tm) 1 4 4 (withR (fun _ => g) f)) else .error .runtimeError := by
  rw [setRotT, hr, ok_bind]
  simp only [flatB_shape, List.length_cons, List.length_nil, Nat.zero_add, Nat.reduceEqDiff, Nat.reduceAdd, if_false]
  rw [pure_ok, ok_bind]
  have h1 : full (flTag d v) [1, 3] 0 = flatB (flTag d v) 1 3 fun _ _ => 0 := rfl
  simp only [h1]
  rw [catRows_flat (by exact ht), ok_bind, reshapeInfer_flat (p := 4) (by omega) (by omega), ok_bind]
  split_ifs with h
  · subst h
    exact cat_rot (n := 1) (g := fun _ => g) (tr := pro2 tr (flTag d v)) (by rw [hm]; exact ht)
  · rw [selectLast_box (by omega), ok_bind, reshapeInfer_rows (by omega), ok_bind, cat_box_error (by omega)]

/-- A batch of rotations -/
theorem setRotT_box {d : DType} {v : Device} {tm tr : Tag} {rot : Tn ℝ} (hr : rotMatrixT rot = .ok (box tr m 3 3 g))
    (hm : tm.dev = v) (ht : tr.dev = v) : setRotT d v (box tm n 4 4 f) rot =
      if rep m n = m then .ok (box (pro2 (pro2 tr (flTag d v)) tm) m 4 4 (withR g fun i => f (bcRow n i))) else .error .runtimeError := by
  rw [setRotT, hr, ok_bind]
  simp only [box_shape, List.length_cons, List.length_nil, Nat.zero_add, Nat.reduceAdd, if_true, List.headD_cons]
  rw [zeros_box, ok_bind, repeatRows_box, ok_bind, pure_ok, ok_bind, catRows_box (by exact ht), ok_bind, reshapeInfer_box (p := 4) (by omega) (by omega), ok_bind]
  split_ifs with h
  · rw [h]
    exact cat_rot (n := m) (g := g) (tr := pro2 tr (flTag d v)) (by rw [hm]; exact ht)
  · rw [selectLast_box (by omega), ok_bind, reshapeInfer_rows (by omega), ok_bind, cat_box_error (by omega)]

end
end PK.Tn
