import Verif.Model.TensorIK
import Verif.Lemmas.TensorJac

/-!
# Tensors of problems and retries, entry by entry
-/

namespace PK.Tn
variable {α β γ : Type} [Inhabited α] [Inhabited β] [Inhabited γ]

/-- The value of a function on `Fin n` at a number -/
def at1 {n : ℕ} (f : Fin n → α) (k : ℕ) : α := if h : k < n then f ⟨k, h⟩ else default

theorem at1_val {n : ℕ} (f : Fin n → α) (i : Fin n) : at1 f i = f i := dif_pos i.2
theorem at1_lt {n : ℕ} (f : Fin n → α) {k : ℕ} (h : k < n) : at1 f k = f ⟨k, h⟩ := dif_pos h

/-- Tensors with one, two and three dimensions -/
noncomputable def tab1 {n : ℕ} (t : Tag) (f : Fin n → α) : Tn α := ofFn t [n] fun i => at1 f (i.headD 0)
noncomputable def tab2 {n m : ℕ} (t : Tag) (f : Fin n → Fin m → α) : Tn α :=
  ofFn t [n, m] fun i => at1 (at1 f (i.headD 0)) (i.getD 1 0)
noncomputable def tab3 {n m k : ℕ} (t : Tag) (f : Fin n → Fin m → Fin k → α) : Tn α :=
  ofFn t [n, m, k] fun i => at1 (at1 (at1 f (i.headD 0)) (i.getD 1 0)) (i.getD 2 0)

section
variable {n m k : ℕ} (t : Tag)
@[simp] theorem tab1_shape (f : Fin n → α) : (tab1 t f).shape = [n] := rfl
@[simp] theorem tab1_tag (f : Fin n → α) : (tab1 t f).tag = t := rfl
@[simp] theorem tab2_shape (f : Fin n → Fin m → α) : (tab2 t f).shape = [n, m] := rfl
@[simp] theorem tab2_tag (f : Fin n → Fin m → α) : (tab2 t f).tag = t := rfl
@[simp] theorem tab3_shape (f : Fin n → Fin m → Fin k → α) : (tab3 t f).shape = [n, m, k] := rfl
@[simp] theorem tab3_tag (f : Fin n → Fin m → Fin k → α) : (tab3 t f).tag = t := rfl

theorem valid1 {i : ℕ} : ValidIx [i] [n] ↔ i < n := by simp [ValidIx]
theorem valid2 {i j : ℕ} : ValidIx [i, j] [n, m] ↔ i < n ∧ j < m := by simp [ValidIx]
theorem valid3 {i j l : ℕ} : ValidIx [i, j, l] [n, m, k] ↔ i < n ∧ j < m ∧ l < k := by simp [ValidIx]

theorem valid1_cases {i : List ℕ} (h : ValidIx i [n]) : ∃ a : Fin n, i = [a.val] := by
  rcases i with _ | ⟨a, _ | ⟨b, i⟩⟩ <;> simp [ValidIx] at h
  exact ⟨⟨a, h⟩, rfl⟩
theorem valid2_cases {i : List ℕ} (h : ValidIx i [n, m]) : ∃ (a : Fin n) (b : Fin m), i = [a.val, b.val] := by
  rcases i with _ | ⟨a, _ | ⟨b, _ | ⟨c, i⟩⟩⟩ <;> simp [ValidIx] at h
  exact ⟨⟨a, h.1⟩, ⟨b, h.2⟩, rfl⟩
theorem valid3_cases {i : List ℕ} (h : ValidIx i [n, m, k]) :
    ∃ (a : Fin n) (b : Fin m) (c : Fin k), i = [a.val, b.val, c.val] := by
  rcases i with _ | ⟨a, _ | ⟨b, _ | ⟨c, _ | ⟨e, i⟩⟩⟩⟩ <;> simp [ValidIx] at h
  exact ⟨⟨a, h.1⟩, ⟨b, h.2.1⟩, ⟨c, h.2.2⟩, rfl⟩

@[simp] theorem tab1_get (f : Fin n → α) (i : Fin n) : (tab1 t f).get [i.val] = f i := by
  rw [tab1, ofFn_get (valid1.2 i.2)]; exact at1_val f i
@[simp] theorem tab2_get (f : Fin n → Fin m → α) (i : Fin n) (j : Fin m) : (tab2 t f).get [i.val, j.val] = f i j := by
  rw [tab2, ofFn_get (valid2.2 ⟨i.2, j.2⟩)]
  show at1 (at1 f i) j = _
  rw [at1_val, at1_val]
@[simp] theorem tab3_get (f : Fin n → Fin m → Fin k → α) (i : Fin n) (j : Fin m) (l : Fin k) :
    (tab3 t f).get [i.val, j.val, l.val] = f i j l := by
  rw [tab3, ofFn_get (valid3.2 ⟨i.2, j.2, l.2⟩)]
  show at1 (at1 (at1 f i) j) l = _
  rw [at1_val, at1_val, at1_val]

variable {t}
theorem eq_tab1 {a : Tn α} {f : Fin n → α} (hs : a.shape = [n]) (ht : a.tag = t) (h : ∀ i : Fin n, a.get [i.val] = f i) :
    a = tab1 t f :=
  ext' hs ht fun i hi => by
    rw [hs] at hi
    obtain ⟨x, rfl⟩ := valid1_cases hi
    rw [h, tab1_get]
theorem eq_tab2 {a : Tn α} {f : Fin n → Fin m → α} (hs : a.shape = [n, m]) (ht : a.tag = t)
    (h : ∀ (i : Fin n) (j : Fin m), a.get [i.val, j.val] = f i j) : a = tab2 t f :=
  ext' hs ht fun i hi => by
    rw [hs] at hi
    obtain ⟨x, y, rfl⟩ := valid2_cases hi
    rw [h, tab2_get]
theorem eq_tab3 {a : Tn α} {f : Fin n → Fin m → Fin k → α} (hs : a.shape = [n, m, k]) (ht : a.tag = t)
    (h : ∀ (i : Fin n) (j : Fin m) (l : Fin k), a.get [i.val, j.val, l.val] = f i j l) : a = tab3 t f :=
  ext' hs ht fun i hi => by
    rw [hs] at hi
    obtain ⟨x, y, z, rfl⟩ := valid3_cases hi
    rw [h, tab3_get]
end

/-! ## Rows of problems and retries -/

/-- The row of retry `r` of problem `i` -/
def pr {N R : ℕ} (i : Fin N) (r : Fin R) : Fin (N * R) := ⟨i * R + r, by
  have := i.2; have := r.2
  calc i.val * R + r.val < i.val * R + R := by omega
    _ = (i.val + 1) * R := by ring
    _ ≤ N * R := Nat.mul_le_mul_right _ (by omega)⟩

variable {N R d : ℕ}

@[simp] theorem pr_val (i : Fin N) (r : Fin R) : (pr i r).val = i * R + r := rfl
@[simp] theorem pr_divNat (i : Fin N) (r : Fin R) : (pr i r).divNat = i := by
  apply Fin.ext
  have := r.2
  simp only [Fin.coe_divNat, pr_val]
  rw [mul_comm, Nat.mul_add_div (by omega), Nat.div_eq_of_lt r.2, add_zero]
@[simp] theorem pr_modNat (i : Fin N) (r : Fin R) : (pr i r).modNat = r := by
  apply Fin.ext
  simp only [Fin.coe_modNat, pr_val]
  rw [mul_comm, Nat.mul_add_mod, Nat.mod_eq_of_lt r.2]
@[simp] theorem pr_eta (b : Fin (N * R)) : pr b.divNat b.modNat = b := by
  apply Fin.ext
  simp only [pr_val, Fin.coe_divNat, Fin.coe_modNat]
  rw [mul_comm]; exact Nat.div_add_mod _ _

/-- The rows of a table -/
def flat (f : Fin N → Fin R → α) (b : Fin (N * R)) : α := f b.divNat b.modNat
@[simp] theorem flat_pr {α : Type} (f : Fin N → Fin R → α) (i : Fin N) (r : Fin R) : flat f (pr i r) = f i r := by simp [flat]

theorem exists_flat {p : Fin N → Fin R → Prop} : (∃ b : Fin (N * R), p b.divNat b.modNat) ↔ ∃ i r, p i r :=
  ⟨fun ⟨b, h⟩ => ⟨_, _, h⟩, fun ⟨i, r, h⟩ => ⟨pr i r, by simpa using h⟩⟩

theorem reshape_at {a : Tn α} {s : Shape} (hp : a.shape.prod = s.prod) :
    ∃ x, reshape a s = .ok x ∧ x.shape = s ∧ x.tag = a.tag ∧
      ∀ i j, ValidIx i s → ValidIx j a.shape → ravel s i = ravel a.shape j → x.get i = a.get j := by
  rw [reshape, if_pos hp]
  refine ⟨_, rfl, rfl, rfl, fun i j hi hj h => ?_⟩
  rw [ofFn_get hi, h, unravel_ravel hj]

theorem reshapeInfer_eq {a : Tn α} {s : Shape} {n : ℕ} (hp : 0 < s.prod) (h : a.shape.prod = n * s.prod) :
    reshapeInfer a s = reshape a (n :: s) := by
  rw [reshapeInfer, if_neg (by omega), h, Nat.mul_div_cancel _ hp]

theorem reshape_split (t : Tag) (f : Fin (N * R) → Fin d → α) (hR : 0 < R) (hd : 0 < d) :
    reshapeInfer (tab2 t f) [R, d] = .ok (tab3 t fun i r k => f (pr i r) k) := by
  rw [reshapeInfer_eq (n := N) (by simp [hR, hd]) (by simp [mul_assoc])]
  obtain ⟨x, hx, hs, ht, hg⟩ := reshape_at (a := tab2 t f) (s := [N, R, d]) (by simp [mul_assoc])
  rw [hx]
  refine congrArg Except.ok (eq_tab3 hs ht fun i r k => ?_)
  rw [hg _ [(pr i r).val, k.val] (valid3.2 ⟨i.2, r.2, k.2⟩) (valid2.2 ⟨(pr i r).2, k.2⟩) (by simp [ravel]; ring)]
  exact tab2_get t f (pr i r) k

theorem reshape_merge (t : Tag) (f : Fin N → Fin R → Fin d → α) (hd : 0 < d) :
    reshapeInfer (tab3 t f) [d] = .ok (tab2 t (flat f)) := by
  rw [reshapeInfer_eq (n := N * R) (by simp [hd]) (by simp [mul_assoc])]
  obtain ⟨x, hx, hs, ht, hg⟩ := reshape_at (a := tab3 t f) (s := [N * R, d]) (by simp [mul_assoc])
  rw [hx]
  refine congrArg Except.ok (eq_tab2 hs ht fun b k => ?_)
  obtain ⟨i, r, rfl⟩ : ∃ i r, b = pr i r := ⟨_, _, (pr_eta b).symm⟩
  rw [hg _ [i.val, r.val, k.val] (valid2.2 ⟨(pr i r).2, k.2⟩) (valid3.2 ⟨i.2, r.2, k.2⟩) (by simp [ravel]; ring), flat_pr]
  exact tab3_get t f i r k

theorem reshape_merge2 (t : Tag) (f : Fin N → Fin R → α) : reshape (tab2 t f) [N * R] = .ok (tab1 t (flat f)) := by
  obtain ⟨x, hx, hs, ht, hg⟩ := reshape_at (a := tab2 t f) (s := [N * R]) (by simp)
  rw [hx]
  refine congrArg Except.ok (eq_tab1 hs ht fun b => ?_)
  obtain ⟨i, r, rfl⟩ : ∃ i r, b = pr i r := ⟨_, _, (pr_eta b).symm⟩
  rw [hg _ [i.val, r.val] (valid1.2 (pr i r).2) (valid2.2 ⟨i.2, r.2⟩) (by simp [ravel]), flat_pr]
  exact tab2_get t f i r

theorem reshape_rows (t : Tag) (f : Fin N → Fin R → α) (hR : 0 < R) : reshapeInfer (tab2 t f) [R] = .ok (tab2 t f) := by
  rw [reshapeInfer_eq (n := N) (by simp [hR]) (by simp)]
  obtain ⟨x, hx, hs, ht, hg⟩ := reshape_at (a := tab2 t f) (s := [N, R]) (by simp)
  rw [hx]
  refine congrArg Except.ok (eq_tab2 hs ht fun i r => ?_)
  rw [hg _ [i.val, r.val] (valid2.2 ⟨i.2, r.2⟩) (valid2.2 ⟨i.2, r.2⟩) rfl]
  exact tab2_get t f i r

/-! ## Operations -/

section
variable {n m k : ℕ} (t : Tag)

theorem mapG_1 (g : α → α) (f : Fin n → α) : mapG g (tab1 t f) = tab1 t fun i => g (f i) :=
  eq_tab1 rfl rfl fun i => (ofFn_get (valid1.2 i.2)).trans (by rw [tab1_get])
theorem mapG_2 (g : α → α) (f : Fin n → Fin m → α) : mapG g (tab2 t f) = tab2 t fun i j => g (f i j) :=
  eq_tab2 rfl rfl fun i j => (ofFn_get (valid2.2 ⟨i.2, j.2⟩)).trans (by rw [tab2_get])
theorem notB_1 (f : Fin n → Bool) : notB (tab1 t f) = tab1 t fun i => !f i := mapG_1 t _ f
theorem notB_2 (f : Fin n → Fin m → Bool) : notB (tab2 t f) = tab2 t fun i j => !f i j := mapG_2 t _ f
open Classical in
theorem testG_2 (p : α → Prop) (f : Fin n → Fin m → α) : testG p (tab2 t f) = tab2 (eqT t) fun i j => decide (p (f i j)) :=
  eq_tab2 rfl rfl fun i j => (ofFn_get (valid2.2 ⟨i.2, j.2⟩)).trans (by rw [tab2_get])

theorem bin_1 (g : α → β → γ) (a : Fin n → α) (b : Fin n → β) : bin g (tab1 t a) (tab1 t b) = .ok (tab1 t fun i => g (a i) (b i)) := by
  rw [bin_same (t := t) (s := [n]) g rfl rfl rfl rfl]
  exact congrArg Except.ok (eq_tab1 rfl rfl fun i => by rw [ofFn_get (valid1.2 i.2), tab1_get, tab1_get])
theorem bin_2 (g : α → β → γ) (a : Fin n → Fin m → α) (b : Fin n → Fin m → β) :
    bin g (tab2 t a) (tab2 t b) = .ok (tab2 t fun i j => g (a i j) (b i j)) := by
  rw [bin_same (t := t) (s := [n, m]) g rfl rfl rfl rfl]
  exact congrArg Except.ok (eq_tab2 rfl rfl fun i j => by rw [ofFn_get (valid2.2 ⟨i.2, j.2⟩), tab2_get, tab2_get])
theorem bin_3 (g : α → β → γ) (a : Fin n → Fin m → Fin k → α) (b : Fin n → Fin m → Fin k → β) :
    bin g (tab3 t a) (tab3 t b) = .ok (tab3 t fun i j l => g (a i j l) (b i j l)) := by
  rw [bin_same (t := t) (s := [n, m, k]) g rfl rfl rfl rfl]
  exact congrArg Except.ok (eq_tab3 rfl rfl fun i j l => by
    rw [ofFn_get (valid3.2 ⟨i.2, j.2, l.2⟩), tab3_get, tab3_get])

/-- `(n, m)` with `(m,)` -/
theorem bin_2row (g : α → β → γ) (a : Fin n → Fin m → α) (b : Fin m → β) :
    bin g (tab2 t a) (tab1 t b) = .ok (tab2 t fun i j => g (a i j) (b j)) := by
  rw [bin_bcast (t := t) (s := [n, m]) (s' := [m]) (r := [n, m]) g rfl rfl rfl rfl
    (by rw [bshape_iff]; simp [bshapeR, ok_bind])]
  refine congrArg Except.ok (eq_tab2 rfl rfl fun i j => ?_)
  rw [ofFn_get (valid2.2 ⟨i.2, j.2⟩), bidx_valid (valid2.2 ⟨i.2, j.2⟩), tab2_get]
  have : bidx [m] [i.val, j.val] = [j.val] := by
    have hj := j.2
    simp only [bidx, bidxR, List.reverse_cons, List.reverse_nil, List.nil_append, List.singleton_append]
    split_ifs with h
    · simp; omega
    · simp
  rw [this, tab1_get]

/-- `(m,)` with `(n, m)` -/
theorem bin_row2 (g : α → β → γ) (a : Fin m → α) (b : Fin n → Fin m → β) :
    bin g (tab1 t a) (tab2 t b) = .ok (tab2 t fun i j => g (a j) (b i j)) := by
  rw [bin_bcast (t := t) (s := [m]) (s' := [n, m]) (r := [n, m]) g rfl rfl rfl rfl
    (by rw [bshape_iff]; simp [bshapeR, ok_bind])]
  refine congrArg Except.ok (eq_tab2 rfl rfl fun i j => ?_)
  rw [ofFn_get (valid2.2 ⟨i.2, j.2⟩), bidx_valid (valid2.2 ⟨i.2, j.2⟩), tab2_get]
  have : bidx [m] [i.val, j.val] = [j.val] := by
    have hj := j.2
    simp only [bidx, bidxR, List.reverse_cons, List.reverse_nil, List.nil_append, List.singleton_append]
    split_ifs with h
    · simp; omega
    · simp
  rw [this, tab1_get]

theorem clamp_2 (a : Fin n → Fin m → Fl) (lo hi : Fin m → Fl) :
    clampT (tab2 t a) (tab1 t lo) (tab1 t hi) = .ok (tab2 t fun i j => Fl.clamp (a i j) (lo j) (hi j)) := by
  rw [clampT, bin_2row, ok_bind, bin_2row]; rfl

theorem sel_2 {c : Tag} (hc : c.dev = t.dev) (p : Fin n → Fin m → Bool) (a b : Fin n → Fin m → α) :
    sel (tab2 c p) (tab2 t a) (tab2 t b) = .ok (tab2 t fun i j => bif p i j then a i j else b i j) := by
  rw [sel]
  simp only [tab2_shape, tab2_tag, bshape_self, ok_bind, whereT_fl _ _ hc]
  refine congrArg Except.ok (eq_tab2 rfl rfl fun i j => ?_)
  have hv := valid2.2 ⟨i.2, j.2⟩
  rw [ofFn_get hv, bidx_valid hv, tab2_get, tab2_get, tab2_get]

theorem unsqueeze_2 (a : Fin n → Fin m → α) : unsqueeze (tab2 t a) = tab3 t fun i j (_ : Fin 1) => a i j :=
  eq_tab3 rfl rfl fun i j l =>
    (ofFn_get (valid3.2 ⟨i.2, j.2, l.2⟩)).trans (tab2_get t a i j)

theorem sel_3 {c : Tag} (hc : c.dev = t.dev) (p : Fin n → Fin m → Bool) (a b : Fin n → Fin m → Fin k → α) :
    sel (tab3 c fun i j (_ : Fin 1) => p i j) (tab3 t a) (tab3 t b) =
      .ok (tab3 t fun i j l => bif p i j then a i j l else b i j l) := by
  rw [sel]
  have hb : bshape [n, m, 1] [n, m, k] = .ok [n, m, k] := bshape_snoc (s := [n, m]) (bshape_self [n, m]) (.inr (.inl ⟨rfl, rfl⟩))
  simp only [tab3_shape, tab3_tag, bshape_self, ok_bind, whereT_fl _ _ hc, hb]
  refine congrArg Except.ok (eq_tab3 rfl rfl fun i j l => ?_)
  have hv := valid3.2 ⟨i.2, j.2, l.2⟩
  rw [ofFn_get hv, bidx_valid hv, tab3_get, tab3_get]
  have : bidx [n, m, 1] [i.val, j.val, l.val] = [i.val, j.val, (0 : Fin 1).val] := by
    have hi := i.2
    have hj := j.2
    simp only [bidx, bidxR, List.reverse_cons, List.reverse_nil, List.nil_append, List.cons_append,
      if_true]
    split_ifs <;> simp <;> omega
  rw [this, tab3_get]

theorem squeeze_3 (a : Fin n → Fin m → α) : squeezeLast (tab3 t fun i j (_ : Fin 1) => a i j) = tab2 t a := by
  rw [squeezeLast, if_pos (by simp)]
  exact eq_tab2 rfl rfl fun i j => (ofFn_get (valid2.2 ⟨i.2, j.2⟩)).trans (tab3_get t (fun i j (_ : Fin 1) => a i j) i j 0)

theorem norm_3 (a : Fin n → Fin m → Fin k → Fl) :
    normLast (tab3 t a) = .ok (tab2 t fun i j => Fl.norm (List.ofFn (a i j))) := by
  rw [normLast]
  show Except.ok _ = _
  refine congrArg Except.ok (eq_tab2 rfl rfl fun i j => ?_)
  refine (ofFn_get (valid2.2 ⟨i.2, j.2⟩)).trans ?_
  congr 1
  refine List.ext_getElem (by simp) fun l h1 h2 => ?_
  simp only [List.getElem_map, List.getElem_range, List.getElem_ofFn, List.cons_append, List.nil_append]
  exact tab3_get t a i j ⟨l, by simpa using h2⟩

theorem norm_2 (a : Fin n → Fin m → Fl) : normLast (tab2 t a) = .ok (tab1 t fun i => Fl.norm (List.ofFn (a i))) := by
  rw [normLast]
  show Except.ok _ = _
  refine congrArg Except.ok (eq_tab1 rfl rfl fun i => ?_)
  refine (ofFn_get (valid1.2 i.2)).trans ?_
  congr 1
  refine List.ext_getElem (by simp) fun l h1 h2 => ?_
  simp only [List.getElem_map, List.getElem_range, List.getElem_ofFn, List.cons_append, List.nil_append]
  exact tab2_get t a i ⟨l, by simpa using h2⟩

theorem slice_3 (a : Fin n → Fin m → Fin 6 → α) (p q : ℕ) (hp : p ≤ q) (hq : q ≤ 6) :
    sliceLast (tab3 t a) p q = .ok (tab3 t fun i j (l : Fin (q - p)) => a i j ⟨p + l, by omega⟩) := by
  rw [sliceLast]
  show Except.ok _ = _
  refine congrArg Except.ok (eq_tab3 (by simp [hq]) rfl fun i j l => ?_)
  have hl := l.2
  rw [ofFn_get]
  · exact tab3_get t a i j ⟨p + l, by omega⟩
  · simp [ValidIx]; omega

open Classical in
theorem any_1 (f : Fin n → Bool) : anyAll (tab1 t f) = decide (∃ i, f i = true) := by
  rw [anyAll, decide_eq_decide]
  constructor
  · rintro ⟨i, hi, h⟩
    obtain ⟨x, rfl⟩ := valid1_cases hi
    exact ⟨x, by rwa [tab1_get] at h⟩
  · rintro ⟨i, h⟩
    exact ⟨[i.val], valid1.2 i.2, by rwa [tab1_get]⟩

open Classical in
theorem anyDim1_2 (f : Fin n → Fin m → Bool) : anyDim1 (tab2 t f) = .ok (tab1 t fun i => decide (∃ j, f i j = true)) := by
  rw [anyDim1]
  show Except.ok _ = _
  refine congrArg Except.ok (eq_tab1 rfl rfl fun i => ?_)
  rw [ofFn_get (valid1.2 i.2), decide_eq_decide]
  constructor
  · rintro ⟨j, hj, h⟩
    exact ⟨⟨j, hj⟩, by rw [← tab2_get t f i ⟨j, hj⟩]; exact h⟩
  · rintro ⟨j, h⟩
    exact ⟨j, j.2, by rw [← tab2_get t f i j] at h; exact h⟩

open Classical in
theorem allDim1_2 (f : Fin n → Fin m → Bool) : allDim1 (tab2 t f) = .ok (tab1 t fun i => decide (∀ j, f i j = true)) := by
  rw [allDim1]
  show Except.ok _ = _
  refine congrArg Except.ok (eq_tab1 rfl rfl fun i => ?_)
  rw [ofFn_get (valid1.2 i.2), decide_eq_decide]
  constructor
  · intro h j
    rw [← tab2_get t f i j]; exact h j j.2
  · intro h j hj
    have := h ⟨j, hj⟩
    rw [← tab2_get t f i ⟨j, hj⟩] at this; exact this

open Classical in
theorem countDim1_2 (f : Fin n → Fin m → Bool) :
    countDim1 (tab2 t f) = .ok (tab1 ⟨.i64, t.dev⟩ fun i => (Finset.univ.filter fun j => f i j = true).card) := by
  rw [countDim1]
  show Except.ok _ = _
  refine congrArg Except.ok (eq_tab1 rfl rfl fun i => ?_)
  rw [ofFn_get (valid1.2 i.2)]
  symm
  refine Finset.card_bij (fun j _ => j.val) (fun j hj => ?_) (fun a _ b _ h => Fin.ext h) fun j hj => ?_
  · simp only [Finset.mem_filter, Finset.mem_univ, true_and, Finset.mem_range] at hj ⊢
    exact ⟨j.2, by rw [← tab2_get t f i j] at hj; exact hj⟩
  · simp only [Finset.mem_filter, Finset.mem_range] at hj
    refine ⟨⟨j, hj.1⟩, ?_, rfl⟩
    simp only [Finset.mem_filter, Finset.mem_univ, true_and]
    rw [← tab2_get t f i ⟨j, hj.1⟩]; exact hj.2

theorem full_1 (x : α) : fullG t [n] x = tab1 t fun _ : Fin n => x :=
  eq_tab1 rfl rfl fun i => by rw [fullG, ofFn_get (valid1.2 i.2)]
theorem full_2 (x : α) : fullG t [n, m] x = tab2 t fun (_ : Fin n) (_ : Fin m) => x :=
  eq_tab2 rfl rfl fun i j => by rw [fullG, ofFn_get (valid2.2 ⟨i.2, j.2⟩)]
theorem full_3 (x : α) : fullG t [n, m, k] x = tab3 t fun (_ : Fin n) (_ : Fin m) (_ : Fin k) => x :=
  eq_tab3 rfl rfl fun i j l => by rw [fullG, ofFn_get (valid3.2 ⟨i.2, j.2, l.2⟩)]

end
end PK.Tn
