import Verif.Model.TensorT3
import Verif.Spec.Dtype
import Verif.Lemmas.TensorTab
import Verif.Lemmas.TensorChain
import Verif.Lemmas.T3

/-!
# The operations of `Model/TensorT3.lean` on tensors with three dimensions

`box t n p q f` is the tensor of shape `(n, p, q)` with entries `f i j k`.
-/

namespace PK.Tn
open Classical Spec

/-- The tensor of shape `(n, p, q)` with entries `f i j k` -/
noncomputable def box (t : Tag) (n p q : ℕ) (f : ℕ → ℕ → ℕ → ℝ) : Tn ℝ :=
  ofFn t [n, p, q] fun i => f (i.headD 0) (i.getD 1 0) (i.getD 2 0)
/-- The tensor of shape `(n, p)` with entries `f i j` -/
noncomputable def flatB (t : Tag) (n p : ℕ) (f : ℕ → ℕ → ℝ) : Tn ℝ := ofFn t [n, p] fun i => f (i.headD 0) (i.getD 1 0)
/-- The tensor of shape `(n,)` with entries `f i` -/
noncomputable def lineB (t : Tag) (n : ℕ) (f : ℕ → ℝ) : Tn ℝ := ofFn t [n] fun i => f (i.headD 0)

section
variable {t : Tag} {n m p q k : ℕ} {f g : ℕ → ℕ → ℕ → ℝ}

@[simp] theorem box_shape : (box t n p q f).shape = [n, p, q] := rfl
@[simp] theorem box_tag : (box t n p q f).tag = t := rfl
@[simp] theorem flatB_shape {f : ℕ → ℕ → ℝ} : (flatB t n p f).shape = [n, p] := rfl
@[simp] theorem flatB_tag {f : ℕ → ℕ → ℝ} : (flatB t n p f).tag = t := rfl
@[simp] theorem lineB_shape {f : ℕ → ℝ} : (lineB t n f).shape = [n] := rfl
@[simp] theorem lineB_tag {f : ℕ → ℝ} : (lineB t n f).tag = t := rfl

theorem box_get {i j l : ℕ} (hi : i < n) (hj : j < p) (hl : l < q) : (box t n p q f).get [i, j, l] = f i j l :=
  ofFn_get (valid3.2 ⟨hi, hj, hl⟩)
theorem flatB_get {f : ℕ → ℕ → ℝ} {i j : ℕ} (hi : i < n) (hj : j < p) : (flatB t n p f).get [i, j] = f i j :=
  ofFn_get (valid2.2 ⟨hi, hj⟩)
theorem lineB_get {f : ℕ → ℝ} {i : ℕ} (hi : i < n) : (lineB t n f).get [i] = f i := ofFn_get (valid1.2 hi)

theorem eq_box {a : Tn ℝ} (hs : a.shape = [n, p, q]) (ht : a.tag = t)
    (h : ∀ i < n, ∀ j < p, ∀ l < q, a.get [i, j, l] = f i j l) : a = box t n p q f := by
  refine ext' hs ht fun i hi => ?_
  rw [hs] at hi
  obtain ⟨x, y, z, rfl⟩ := valid3_cases hi
  rw [h _ x.2 _ y.2 _ z.2, box_get x.2 y.2 z.2]

theorem eq_flatB {a : Tn ℝ} {f : ℕ → ℕ → ℝ} (hs : a.shape = [n, p]) (ht : a.tag = t)
    (h : ∀ i < n, ∀ j < p, a.get [i, j] = f i j) : a = flatB t n p f := by
  refine ext' hs ht fun i hi => ?_
  rw [hs] at hi
  obtain ⟨x, y, rfl⟩ := valid2_cases hi
  rw [h _ x.2 _ y.2, flatB_get x.2 y.2]

theorem eq_lineB {a : Tn ℝ} {f : ℕ → ℝ} (hs : a.shape = [n]) (ht : a.tag = t) (h : ∀ i < n, a.get [i] = f i) :
    a = lineB t n f := by
  refine ext' hs ht fun i hi => ?_
  rw [hs] at hi
  obtain ⟨x, rfl⟩ := valid1_cases hi
  rw [h _ x.2, lineB_get x.2]

theorem eta3 {a : Tn ℝ} (hs : a.shape = [n, p, q]) : a = box a.tag n p q fun i j l => a.get [i, j, l] :=
  eq_box hs rfl fun _ _ _ _ _ _ => rfl
theorem eta2 {a : Tn ℝ} (hs : a.shape = [n, p]) : a = flatB a.tag n p fun i j => a.get [i, j] :=
  eq_flatB hs rfl fun _ _ _ _ => rfl
theorem eta1 {a : Tn ℝ} (hs : a.shape = [n]) : a = lineB a.tag n fun i => a.get [i] :=
  eq_lineB hs rfl fun _ _ => rfl

theorem box_congr (h : ∀ i < n, ∀ j < p, ∀ l < q, f i j l = g i j l) : box t n p q f = box t n p q g :=
  eq_box rfl rfl fun i hi j hj l hl => (box_get hi hj hl).trans (h i hi j hj l hl)

/-! ## Operations -/

theorem unsqueezeAt_flat (f : ℕ → ℕ → ℝ) : unsqueezeAt (flatB t n p f) 0 = box t 1 n p fun _ j l => f j l := by
  refine eq_box rfl rfl fun i hi j hj l hl => ?_
  refine (ofFn_get (valid3.2 ⟨hi, hj, hl⟩)).trans ?_
  exact flatB_get hj hl

theorem bshape_1nn (m p q : ℕ) : bshape [1, p, q] [m, p, q] = .ok [m, p, q] := by
  rw [bshape_iff]
  simp only [List.reverse_cons, List.reverse_nil, List.nil_append, List.cons_append, bshapeR, ok_bind, if_true]
  by_cases h : 1 = m
  · subst h; simp [ok_bind, pure_ok]
  · simp [h, ok_bind, pure_ok]

theorem bidx3 {a b c i j l : ℕ} : bidx [a, b, c] [i, j, l] = [if a = 1 then 0 else i, if b = 1 then 0 else j, if c = 1 then 0 else l] := by
  simp [bidx, bidxR]

theorem expand3_box : expand3 (box t 1 p q f) m = .ok (box t m p q fun _ j l => f 0 j l) := by
  rw [expand3, if_pos (by rfl), expandFirst, expand]
  rw [if_pos (by exact bshape_1nn m p q)]
  refine congrArg _ (eq_box rfl rfl fun i hi j hj l hl => ?_)
  refine (ofFn_get (valid3.2 ⟨hi, hj, hl⟩)).trans ?_
  rw [box_shape, bidx3, if_pos rfl, if_one hj, if_one hl]
  exact box_get (by omega) hj hl

theorem castT_box (rd : DType → ℝ → ℝ) (d : Dt) (hd : t.dt ≠ d) :
    castT rd d (box t n p q f) = box ⟨d, t.dev⟩ n p q fun i j l => conv rd d (f i j l) := by
  rw [castT, if_neg (by exact hd)]
  refine eq_box rfl rfl fun i hi j hj l hl => ?_
  refine (ofFn_get (valid3.2 ⟨hi, hj, hl⟩)).trans ?_
  rw [box_get hi hj hl]

theorem bmm_box : bmm (box t n p k f) (box t n k q g) = .ok (box t n p q fun i j l => ∑ x ∈ Finset.range k, f i j x * g i x l) := by
  simp only [bmm, box_shape, box_tag, and_self, if_true, PK.matmul, ok_bind, pure_ok]
  refine congrArg _ (eq_box rfl rfl fun i hi j hj l hl => ?_)
  refine (ofFn_get (valid3.2 ⟨hi, hj, hl⟩)).trans (Finset.sum_congr rfl fun x hx => ?_)
  have hx := Finset.mem_range.1 hx
  show (box t n p k f).get [i, j, x] * (box t n k q g).get [i, x, l] = _
  rw [box_get hi hj hx, box_get hi hx hl]


theorem bcRow_lt {i : ℕ} (h : Compat n m) (hi : i < bsize n m) : bcRow n i < n ∧ bcRow m i < m := by
  unfold Compat at h; unfold bsize at hi; unfold bcRow
  split_ifs at * <;> omega

/-- What an entry of the second operand becomes -/
noncomputable def conv2 (rd : DType → ℝ → ℝ) (a b : Dt) (x : ℝ) : ℝ := if a = b then x else conv rd a x

theorem ok_pair {α β : Type} {a a' : α} {b b' : β} (ha : a = a') (hb : b = b') :
    (Except.ok (a, b) : Except Err (α × β)) = .ok (a', b') := by rw [ha, hb]

theorem bmmExpand_box {ta tb : Tag} (h : Compat n m) :
    bmmExpand (box ta n p k f) (box tb m k q g) = .ok (box ta (bsize n m) p k fun i j l => f (bcRow n i) j l,
      box tb (bsize n m) k q fun i j l => g (bcRow m i) j l) := by
  simp only [bmmExpand, box_shape, List.head?_cons]
  by_cases hnm : n = m
  · subst hnm
    have e : bsize n n = n := by unfold bsize; split_ifs <;> omega
    have e' : ∀ i < n, bcRow n i = i := fun i hi => by unfold bcRow; split_ifs <;> omega
    rw [if_neg (not_not_intro rfl), e]
    refine ok_pair (box_congr fun i hi j _ l _ => ?_) (box_congr fun i hi j _ l _ => ?_) <;> rw [e' i hi]
  · rw [if_pos hnm, if_neg (by unfold Compat at h; omega)]
    by_cases h1 : n = 1
    · subst h1
      have h2 : ¬ m = 1 := fun h => hnm h.symm
      have e : bsize 1 m = m := if_pos rfl
      rw [if_pos rfl, expand3_box, ok_bind, if_neg h2, e, pure_ok, ok_bind, pure_ok]
      refine ok_pair rfl (box_congr fun i hi j _ l _ => ?_)
      rw [bcRow, if_neg h2]
    · have h2 : m = 1 := by unfold Compat at h; omega
      subst h2
      have e : bsize n 1 = n := if_neg h1
      rw [if_neg h1, pure_ok, ok_bind, if_pos rfl, box_shape, List.headD_cons, expand3_box, ok_bind, e, pure_ok]
      refine ok_pair (box_congr fun i hi j _ l _ => ?_) rfl
      rw [bcRow, if_neg h1]

theorem broadcastBmm_box (rd : DType → ℝ → ℝ) (v : Device) (da db : Dt) (h : Compat n m) :
    broadcastBmm rd (box ⟨da, v⟩ n p k f) (box ⟨db, v⟩ m k q g) =
      .ok (box ⟨da, v⟩ (bsize n m) p q fun i j l =>
        ∑ x ∈ Finset.range k, f (bcRow n i) j x * conv2 rd da db (g (bcRow m i) x l)) := by
  rw [broadcastBmm]
  simp only
  rw [if_neg (by simp), bmmExpand_box h, ok_bind]
  by_cases hd : da = db
  · subst hd
    rw [if_neg (by simp)]
    simp only [conv2, if_true]
    exact bmm_box
  · rw [if_pos (by exact hd), box_tag, castT_box rd da (Ne.symm hd)]
    simp only [conv2, if_neg hd]
    exact bmm_box

/-- Operands on different devices, dtypes aside -/
theorem broadcastBmm_devices (rd : DType → ℝ → ℝ) {ta tb : Tag} (ht : ta.dev ≠ tb.dev) (h : Compat n m) :
    broadcastBmm rd (box ta n p k f) (box tb m k q g) = .error .runtimeError := by
  rw [broadcastBmm]
  simp only
  rw [if_neg (by simp), bmmExpand_box h, ok_bind]
  have : ∀ (b : Tn ℝ), b.tag.dev = tb.dev → b.shape = [bsize n m, k, q] →
      bmm (box ta (bsize n m) p k fun i j l => f (bcRow n i) j l) b = .error .runtimeError := by
    intro b hb hs
    simp only [bmm, box_shape, hs, and_self, if_true, PK.matmul, box_tag]
    have : ¬ ta = b.tag := fun e => ht (by rw [e, hb])
    simp only [this, if_false, error_bind]
  apply this
  · split_ifs
    · rw [castT]; split_ifs <;> rfl
    · rfl
  · split_ifs
    · rw [castT]; split_ifs <;> rfl
    · rfl

theorem broadcastBmm_refuses (rd : DType → ℝ → ℝ) {a b : Tn ℝ} {s s' : Shape} (hs : a.shape = n :: s) (hl : s.length ≠ 1)
    (hs' : b.shape = m :: s') (h : ¬ Compat n m) : broadcastBmm rd a b = .error .valueError := by
  unfold Compat at h
  rw [broadcastBmm]
  simp only
  rw [if_neg (by rw [hs]; simpa using hl)]
  simp only [bmmExpand, hs, hs', List.head?_cons]
  rw [if_pos (by omega), if_pos (by omega), error_bind]

theorem broadcastBmm_flat (rd : DType → ℝ → ℝ) (f : ℕ → ℕ → ℝ) (b : Tn ℝ) :
    broadcastBmm rd (flatB t n p f) b = broadcastBmm rd (box t 1 n p fun _ j l => f j l) b := by
  rw [broadcastBmm, broadcastBmm]
  simp only
  rw [if_pos (by rfl), if_neg (by simp), unsqueezeAt_flat]

end
end PK.Tn
