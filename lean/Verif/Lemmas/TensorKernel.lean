import Verif.Lemmas.TensorTab
import Verif.Props.IKStep

/-!
# The step kernels on tensors, row by row
-/

namespace PK
open Tn Matrix
noncomputable section
open Classical

namespace Tn
section
variable {α β γ : Type} [Inhabited α] [Inhabited β] [Inhabited γ] {n m k : ℕ} (t : Tag)

theorem tab3_M (f : Fin n → Fin m → Fin k → α) : tab3 t f = ofM t [n] m k fun i => at1 f (i.headD 0) := by
  refine eq_ofM rfl rfl fun i r c hr hc hi => ?_
  obtain ⟨b, rfl⟩ := valid1_cases hi
  refine (tab3_get t f b ⟨r, hr⟩ ⟨c, hc⟩).trans ?_
  rw [List.headD_cons, at1_val]

theorem ofM_tab3 (f : List ℕ → Fin m → Fin k → α) : ofM t [n] m k f = tab3 t fun b : Fin n => f [b.val] :=
  eq_tab3 rfl rfl fun b r c => ofM_get (i := [b.val]) (valid1.2 b.2) r.2 c.2

theorem tab2_V (f : Fin n → Fin m → α) : tab2 t f = ofV t [n] m fun i => at1 f (i.headD 0) := by
  refine eq_ofV rfl rfl fun i r hr hi => ?_
  obtain ⟨b, rfl⟩ := valid1_cases hi
  refine (tab2_get t f b ⟨r, hr⟩).trans ?_
  rw [List.headD_cons, at1_val]

theorem ofV_tab2 (f : List ℕ → Fin m → α) : ofV t [n] m f = tab2 t fun b : Fin n => f [b.val] :=
  eq_tab2 rfl rfl fun b r => ofV_get (i := [b.val]) (valid1.2 b.2) r.2

theorem matmul_3 {l : ℕ} (a : Fin n → Fin m → Fin k → ℝ) (b : Fin n → Fin k → Fin l → ℝ) :
    matmulT (tab3 t a) (tab3 t b) = .ok (tab3 t fun i r c => ∑ x, a i r x * b i x c) := by
  rw [tab3_M, tab3_M, matmulT_M, ofM_tab3]
  simp only [List.headD_cons, at1_val]

theorem transpose_3 (a : Fin n → Fin m → Fin k → ℝ) : transposeLast (tab3 t a) = .ok (tab3 t fun i r c => a i c r) := by
  rw [tab3_M, transposeLast_M, ofM_tab3]
  simp only [List.headD_cons, at1_val]

theorem bidx_one_left {s : ℕ} {i j l : ℕ} (hj : j < m) (hl : l < k) :
    bidx [m, k] [i, j, l] = [j, l] ∧ (s = 1 → bidx [s, m, 1] [i, j, l] = [0, j, 0]) := by
  constructor
  · simp only [bidx, bidxR, List.reverse_cons, List.reverse_nil, List.nil_append, List.cons_append]
    split_ifs <;> simp <;> omega
  · rintro rfl
    simp only [bidx, bidxR, List.reverse_cons, List.reverse_nil, List.nil_append, List.cons_append, if_true]
    split_ifs <;> simp; omega

/-- `(n, m, k)` with `(m, k)` -/
theorem bin_3M (g : α → β → γ) (a : Fin n → Fin m → Fin k → α) (b : Fin m → Fin k → β) :
    bin g (tab3 t a) (tab2 t b) = .ok (tab3 t fun i r c => g (a i r c) (b r c)) := by
  rw [bin_bcast (t := t) (s := [n, m, k]) (s' := [m, k]) (r := [n, m, k]) g rfl rfl rfl rfl
    (by rw [bshape_iff]; simp [bshapeR, ok_bind])]
  refine congrArg Except.ok (eq_tab3 rfl rfl fun i r c => ?_)
  have hv := valid3.2 ⟨i.2, r.2, c.2⟩
  rw [ofFn_get hv, bidx_valid hv, tab3_get, (bidx_one_left (s := 1) r.2 c.2).1, tab2_get]

/-- `(1, m, 1)` with `(n, m, k)` -/
theorem bin_1m1 (g : α → β → γ) (a : Fin m → α) (b : Fin n → Fin m → Fin k → β) :
    bin g (tab3 t fun (_ : Fin 1) r (_ : Fin 1) => a r) (tab3 t b) = .ok (tab3 t fun i r c => g (a r) (b i r c)) := by
  have hb : bshape [1, m, 1] [n, m, k] = .ok [n, m, k] := by
    rw [bshape_iff]
    simp only [List.reverse_cons, List.reverse_nil, List.nil_append, List.cons_append, bshapeR, ok_bind, if_true]
    by_cases h1 : 1 = n <;> by_cases h2 : 1 = k <;> simp [h1, h2, ok_bind]
    all_goals first | (subst h1; subst h2; simp [ok_bind]) | (subst h1; simp [ok_bind, h2]) | (subst h2; simp [ok_bind, h1])
  rw [bin_bcast (t := t) (s := [1, m, 1]) (s' := [n, m, k]) (r := [n, m, k]) g rfl rfl rfl rfl hb]
  refine congrArg Except.ok (eq_tab3 rfl rfl fun i r c => ?_)
  have hv := valid3.2 ⟨i.2, r.2, c.2⟩
  rw [ofFn_get hv, bidx_valid hv, tab3_get, (bidx_one_left (k := k) (s := 1) r.2 c.2).2 rfl]
  exact congrArg (g · _) (tab3_get t (fun (_ : Fin 1) r (_ : Fin 1) => a r) 0 r 0)

/-- `(n, 1, 1)` with `(m, k)` -/
theorem bin_n11 (g : α → β → γ) (a : Fin n → α) (b : Fin m → Fin k → β) :
    bin g (tab3 t fun i (_ : Fin 1) (_ : Fin 1) => a i) (tab2 t b) = .ok (tab3 t fun i r c => g (a i) (b r c)) := by
  have hb : bshape [n, 1, 1] [m, k] = .ok [n, m, k] := by
    rw [bshape_iff]
    simp only [List.reverse_cons, List.reverse_nil, List.nil_append, List.cons_append, bshapeR, ok_bind, if_true]
    by_cases h1 : 1 = m <;> by_cases h2 : 1 = k <;> simp [h1, h2, ok_bind]
    all_goals first | (subst h1; subst h2; simp [ok_bind]) | (subst h1; simp [ok_bind, h2]) | (subst h2; simp [ok_bind, h1])
  rw [bin_bcast (t := t) (s := [n, 1, 1]) (s' := [m, k]) (r := [n, m, k]) g rfl rfl rfl rfl hb]
  refine congrArg Except.ok (eq_tab3 rfl rfl fun i r c => ?_)
  have hv := valid3.2 ⟨i.2, r.2, c.2⟩
  rw [ofFn_get hv, (bidx_one_left (s := 1) r.2 c.2).1, tab2_get]
  have : bidx [n, 1, 1] [i.val, r.val, c.val] = [i.val, (0 : Fin 1).val, (0 : Fin 1).val] := by
    have hi := i.2
    simp only [bidx, bidxR, List.reverse_cons, List.reverse_nil, List.nil_append, List.cons_append, if_true]
    split_ifs <;> simp <;> omega
  rw [this]
  exact congrArg (g · _) (tab3_get t (fun i (_ : Fin 1) (_ : Fin 1) => a i) i 0 0)

theorem sumMid_3 (a : Fin n → Fin m → ℝ) :
    sumMidKeep (tab3 t fun i r (_ : Fin 1) => a i r) = .ok (tab3 t fun i (_ : Fin 1) (_ : Fin 1) => ∑ r, a i r) := by
  rw [sumMidKeep]
  show Except.ok _ = _
  refine congrArg Except.ok (eq_tab3 rfl rfl fun i r c => (ofFn_get (valid3.2 ⟨i.2, r.2, c.2⟩)).trans ?_)
  rw [Finset.sum_range]
  exact Finset.sum_congr rfl fun x _ => tab3_get t (fun i r (_ : Fin 1) => a i r) i x c

theorem map_3 (g : ℝ → ℝ) (d : DType) (v : Device) (a : Fin n → Fin m → Fin k → ℝ) :
    map g (tab3 (flTag d v) a) = tab3 (flTag d v) fun i r c => g (a i r c) :=
  eq_tab3 rfl rfl fun i r c => (ofFn_get (valid3.2 ⟨i.2, r.2, c.2⟩)).trans (by rw [tab3_get])

theorem map_2 (g : ℝ → ℝ) (d : DType) (v : Device) (a : Fin n → Fin m → ℝ) :
    map g (tab2 (flTag d v) a) = tab2 (flTag d v) fun i r => g (a i r) :=
  eq_tab2 rfl rfl fun i r => (ofFn_get (valid2.2 ⟨i.2, r.2⟩)).trans (by rw [tab2_get])

theorem eyeN_tab : eyeN n t = tab2 t fun i j => (1 : Matrix (Fin n) (Fin n) ℝ) i j :=
  eq_tab2 rfl rfl fun i j => (ofFn_get (valid2.2 ⟨i.2, j.2⟩)).trans (by
    simp [Matrix.one_apply, Fin.ext_iff])

theorem cat_33 (a b : Fin n → Fin 3 → ℝ) :
    catMid (tab3 t fun i r (_ : Fin 1) => a i r) (tab3 t fun i r (_ : Fin 1) => b i r) =
      .ok (tab3 t fun i r (_ : Fin 1) => cat33 (a i) (b i) r) := by
  rw [catMid]
  simp only [tab3_shape, and_self, if_true]
  rw [show tags [tab3 t fun i r (_ : Fin 1) => a i r, tab3 t fun i r (_ : Fin 1) => b i r] = .ok t from
    tags_eq (by simp) (by simp), ok_bind]
  refine congrArg Except.ok (eq_tab3 rfl rfl fun i r c => (ofFn_get (valid3.2 ⟨i.2, r.2, c.2⟩)).trans ?_)
  obtain rfl : c = 0 := Subsingleton.elim _ _
  have h : ∀ x : Fin 3, (tab3 t fun i r (_ : Fin 1) => a i r).get [i.val, x.val, 0] = a i x := fun x => tab3_get t _ i x 0
  have h' : ∀ x : Fin 3, (tab3 t fun i r (_ : Fin 1) => b i r).get [i.val, x.val, 0] = b i x := fun x => tab3_get t _ i x 0
  fin_cases r
  · exact h 0
  · exact h 1
  · exact h 2
  · exact h' 0
  · exact h' 1
  · exact h' 2

theorem solve_3 (A : Fin n → Matrix (Fin m) (Fin m) ℝ) (b : Fin n → Fin m → ℝ) (hA : ∀ i, (A i).det ≠ 0) :
    solveT (tab3 t A) (tab3 t fun i r (_ : Fin 1) => b i r) = .ok (tab3 t fun i r (_ : Fin 1) => ((A i)⁻¹ *ᵥ b i) r) := by
  rw [solveT]
  have hM : ∀ i : Fin n, (Matrix.of fun r c : Fin m => (tab3 t A).get [i.val, r.val, c.val]) = A i := by
    intro i; ext r c; exact tab3_get t A i r c
  show (if m = m ∧ m = m ∧ n = n then _ else _) = _
  rw [if_pos ⟨rfl, rfl, rfl⟩, show PK.matmul (tab3 t A).tag (tab3 t fun i r (_ : Fin 1) => b i r).tag = .ok t from
    if_pos rfl, ok_bind, if_pos fun i hi => by
      show (Matrix.of fun r c : Fin m => (tab3 t A).get [i, r.val, c.val]).det ≠ 0
      rw [hM ⟨i, hi⟩]; exact hA _, pure_ok]
  refine congrArg Except.ok (eq_tab3 rfl rfl fun i r c => (ofFn_get (valid3.2 ⟨i.2, r.2, c.2⟩)).trans ?_)
  obtain rfl : c = 0 := Subsingleton.elim _ _
  have hb : (fun r : Fin m => (tab3 t fun i r (_ : Fin 1) => b i r).get [i.val, r.val, 0]) = b i :=
    funext fun r => tab3_get t (fun i r (_ : Fin 1) => b i r) i r 0
  simp only [List.getD_cons_succ, List.getD_cons_zero, List.headD_cons, hM, Fin.is_lt, dif_pos, Fin.eta]
  exact congrFun (congrArg _ hb) r

theorem weight_reshape (w : Fin m → ℝ) :
    reshape (tab1 t w) [1, m, 1] = .ok (tab3 t fun (_ : Fin 1) r (_ : Fin 1) => w r) := by
  obtain ⟨x, hx, hs, ht, hg⟩ := reshape_at (a := tab1 t w) (s := [1, m, 1]) (by simp)
  rw [hx]
  refine congrArg Except.ok (eq_tab3 hs ht fun i r c => ?_)
  rw [hg _ [r.val] (valid3.2 ⟨i.2, r.2, c.2⟩) (valid1.2 r.2) (by simp [ravel]), tab1_get]
end

/-! ## Pose errors -/

section
variable {N R : ℕ} (t : Tag)

theorem reshape_44 (m : Fin (N * R) → Fin 4 → Fin 4 → ℝ) :
    reshape (tab3 t m) [N, R, 4, 4] = .ok (ofM t [N, R] 4 4 fun i => at1 m (i.headD 0 * R + i.getD 1 0)) := by
  obtain ⟨x, hx, hs, ht, hg⟩ := reshape_at (a := tab3 t m) (s := [N, R, 4, 4]) (by simp [mul_assoc])
  rw [hx]
  refine congrArg Except.ok (eq_ofM hs ht fun i a c ha hc hi => ?_)
  obtain ⟨x, y, rfl⟩ := valid2_cases hi
  rw [hg _ [(pr x y).val, a, c] (validIx_two.2 ⟨hi, ha, hc⟩) (valid3.2 ⟨(pr x y).2, ha, hc⟩) (by simp [ravel]; ring)]
  refine (tab3_get t m (pr x y) ⟨a, ha⟩ ⟨c, hc⟩).trans ?_
  rw [show [x.val, y.val].headD 0 * R + [x.val, y.val].getD 1 0 = (pr x y).val from rfl, at1_val]

theorem unsqueeze1_V {n : ℕ} (f : Fin N → Fin n → ℝ) :
    unsqueezeAt (tab2 t f) 1 = ofV t [N, 1] n fun i => at1 f (i.headD 0) := by
  refine eq_ofV rfl rfl fun i k hk hi => ?_
  obtain ⟨a, b, rfl⟩ := valid2_cases hi
  refine (ofFn_get (valid3.2 ⟨a.2, b.2, hk⟩)).trans ?_
  refine (tab2_get t f a ⟨k, hk⟩).trans ?_
  rw [List.headD_cons, at1_val]

theorem reshape_col (f : List ℕ → Fin 3 → ℝ) :
    reshapeInfer (ofV t [N, R] 3 f) [3, 1] = .ok (tab3 t fun (b : Fin (N * R)) k (_ : Fin 1) => f [b.divNat.val, b.modNat.val] k) := by
  rw [reshapeInfer_eq (n := N * R) (by simp) (by simp [mul_assoc])]
  obtain ⟨x, hx, hs, ht, hg⟩ := reshape_at (a := ofV t [N, R] 3 f) (s := [N * R, 3, 1]) (by simp [mul_assoc])
  rw [hx]
  refine congrArg Except.ok (eq_tab3 hs ht fun b k c => ?_)
  obtain ⟨i, r, rfl⟩ : ∃ i r, b = pr i r := ⟨_, _, (pr_eta b).symm⟩
  rw [hg _ ([i.val, r.val] ++ [k.val]) (valid3.2 ⟨(pr i r).2, k.2, c.2⟩) (validIx_snoc.2 ⟨valid2.2 ⟨i.2, r.2⟩, k.2⟩)
    (by simp [ravel]; ring), ofV_get (valid2.2 ⟨i.2, r.2⟩) k.2]
  simp

theorem bshape_N1 : bshape [N, 1] [N, R] = .ok [N, R] := bshape_snoc (s := [N]) (bshape_self [N]) (.inr (.inl ⟨rfl, rfl⟩))
theorem bidx_N1 (i : Fin N) (r : Fin R) : (bidx [N, 1] [i.val, r.val]).headD 0 = i.val := by
  have hi := i.2
  simp only [bidx, bidxR, List.reverse_cons, List.reverse_nil, List.nil_append, List.cons_append, if_true]
  split_ifs <;> simp <;> omega

end
end Tn

variable {N R d : ℕ} (dt : DType) (v : Device)


/-- the pose error of the rows of `m` -/
theorem pos_rows (m : List ℕ → Fin 4 → Fin 4 → ℝ) (tp : Fin N → V3) (tq : Fin N → Quat) :
    (do reshapeInfer (← bin (· - ·) (unsqueezeAt (tab2 (flTag dt v) tp) 1) (← Tn.posColumn (ofM (flTag dt v) [N, R] 4 4 m))) [3, 1]) =
    .ok (tab3 (flTag dt v) fun (b : Fin (N * R)) k (_ : Fin 1) =>
        head3 (deltaPose (.of (m [b.divNat.val, b.modNat.val])) (tp b.divNat) (tq b.divNat)) k) := by
  rw [posColumn_M, ok_bind, unsqueeze1_V, bin_VB _ _ _ _ _ bshape_N1, ok_bind, reshape_col]
  refine congrArg (fun x => Except.ok (tab3 _ x)) (funext fun b => funext fun k => funext fun _ => ?_)
  have hv := valid2.2 ⟨b.divNat.2, b.modNat.2⟩
  rw [bidx_valid hv, bidx_N1, at1_val]
  fin_cases k <;> rfl

theorem tail3_cat33 (a b : V3) : tail3 (cat33 a b) = b := by
  funext k; fin_cases k <;> rfl

theorem rot_rows (m : List ℕ → Fin 4 → Fin 4 → ℝ) (tp : Fin N → V3) (tq : Fin N → Quat) :
    (do
      let cur ← Tn.matrixToQuaternion (← Tn.rotBlock (ofM (flTag dt v) [N, R] 4 4 m))
      let diff ← Tn.quaternionMultiply (unsqueezeAt (tab2 (flTag dt v) fun i => (tq i).vec) 1) (← Tn.quaternionInvert cur)
      let aa ← Tn.quaternionToAxisAngle diff
      reshapeInfer aa [3, 1]) =
    .ok (tab3 (flTag dt v) fun (b : Fin (N * R)) k (_ : Fin 1) =>
        tail3 (deltaPose (.of (m [b.divNat.val, b.modNat.val])) (tp b.divNat) (tq b.divNat)) k) := by
  rw [rotBlock_M, ok_bind, matrixToQuaternion_M, ok_bind, quaternionInvert_V, ok_bind, unsqueeze1_V,
    quaternionMultiply_V _ _ bshape_N1, ok_bind, quaternionToAxisAngle_V, ok_bind, reshape_col]
  refine congrArg (fun x => Except.ok (tab3 _ x)) (funext fun b => funext fun k => funext fun _ => ?_)
  have hv := valid2.2 ⟨b.divNat.2, b.modNat.2⟩
  rw [bidx_valid hv, bidx_N1, at1_val]
  rw [deltaPose, tail3_cat33]
  rfl

theorem cat33_head_tail (x : Fin 6 → ℝ) : cat33 (head3 x) (tail3 x) = x := by
  funext k; fin_cases k <;> rfl

theorem do_assoc {α β : Type} (x : Except Err α) (f : α → Except Err β) {γ : Type} (g : β → Except Err γ) :
    (x >>= fun a => f a >>= g) = ((x >>= f) >>= g) := (bind_assoc x f g).symm

/-- The pose errors that the kernels compute -/
theorem kernelDx_rows (hR : 0 < R) (m : Fin (N * R) → M4) (tp : Fin N → V3) (tq : Fin N → Quat) :
    kernelDx (tab3 (flTag dt v) m) (tab2 (flTag dt v) tp) (tab2 (flTag dt v) fun i => (tq i).vec) R =
      .ok (tab3 (flTag dt v) fun b k (_ : Fin 1) => deltaPose (m b) (tp b.divNat) (tq b.divNat) k) := by
  rw [kernelDx]
  show (if R = 0 then _ else _) = _
  rw [if_neg hR.ne', Nat.mul_div_cancel _ hR]
  refine (congrArg (· >>= _) (reshape_44 (flTag dt v) m)).trans ?_
  rw [ok_bind]
  simp only [Tn.sub]
  have h1 := pos_rows dt v (R := R) (fun i => at1 m (i.headD 0 * R + i.getD 1 0)) tp tq
  have h2 := rot_rows dt v (R := R) (fun i => at1 m (i.headD 0 * R + i.getD 1 0)) tp tq
  simp only [do_assoc] at h1 h2 ⊢
  rw [h1, ok_bind, h2, ok_bind, cat_33]
  refine congrArg (fun x => Except.ok (tab3 _ x)) (funext fun b => funext fun k => funext fun _ => ?_)
  rw [cat33_head_tail]
  obtain ⟨i, r, rfl⟩ : ∃ i r, b = pr i r := ⟨_, _, (pr_eta b).symm⟩
  rw [pr_divNat, pr_modNat, show [i.val, r.val].headD 0 * R + [i.val, r.val].getD 1 0 = (pr i r).val from rfl]
  exact congrArg (fun x => deltaPose (Matrix.of x) (tp i) (tq i) k) (at1_val m (pr i r))

/-! ## The step -/

theorem weighJ_rows {n : ℕ} (w : Option (Fin 6 → ℝ)) (J : Fin n → Matrix (Fin 6) (Fin d) ℝ) :
    weighT (w.map (tab1 (flTag dt v))) (tab3 (flTag dt v) J) = .ok (tab3 (flTag dt v) fun b => weightJ w (J b)) := by
  cases w with
  | none => rfl
  | some w =>
    show (reshape (tab1 _ w) [1, 6, 1] >>= fun x => Tn.mul x _) = _
    rw [weight_reshape, ok_bind]
    exact bin_1m1 (flTag dt v) (· * ·) w _

theorem weighDx_rows {n : ℕ} (w : Option (Fin 6 → ℝ)) (x : Fin n → Fin 6 → ℝ) :
    weighT (w.map (tab1 (flTag dt v))) (tab3 (flTag dt v) fun b k (_ : Fin 1) => x b k) =
      .ok (tab3 (flTag dt v) fun b k (_ : Fin 1) => weightDx w (x b) k) := by
  cases w with
  | none => rfl
  | some w =>
    show (reshape (tab1 _ w) [1, 6, 1] >>= fun x => Tn.mul x _) = _
    rw [weight_reshape, ok_bind]
    exact bin_1m1 (flTag dt v) (· * ·) w _

theorem regMatrix_tab (reg : ℝ) :
    regMatrixT (flTag dt v) reg = tab2 (flTag dt v) fun i j => (reg • (1 : Matrix (Fin 6) (Fin 6) ℝ)) i j := by
  rw [regMatrixT, eyeN_tab, map_2]
  rfl

/-- what the kernel returns, row by row -/
theorem ikStep_rows (hR : 0 < R) (m : Fin (N * R) → M4) (tp : Fin N → V3) (tq : Fin N → Quat)
    (J : Fin (N * R) → Matrix (Fin 6) (Fin d) ℝ) (reg lm : ℝ) (w : Option (Fin 6 → ℝ))
    (hs : ∀ b, (dlsMatrix (weightJ w (J b)) (weightDx w (deltaPose (m b) (tp b.divNat) (tq b.divNat))) reg lm).det ≠ 0) :
    ikStepT (tab3 (flTag dt v) m) (tab2 (flTag dt v) tp) (tab2 (flTag dt v) fun i => (tq i).vec) (tab3 (flTag dt v) J)
      (regMatrixT (flTag dt v) reg) R lm (w.map (tab1 (flTag dt v))) =
    .ok (tab3 (flTag dt v) fun b k (_ : Fin 1) => (ikStepKernel (m b) (tp b.divNat) (tq b.divNat) (J b) reg lm w).1 k,
      tab3 (flTag dt v) fun b k (_ : Fin 1) => (ikStepKernel (m b) (tp b.divNat) (tq b.divNat) (J b) reg lm w).2 k) := by
  rw [ikStepT, kernelDx_rows _ _ hR, ok_bind, weighJ_rows, ok_bind, weighDx_rows, ok_bind, regMatrix_tab]
  simp only [Tn.add, Tn.mul]
  have ht : transposeLast (tab3 (flTag dt v) fun b => weightJ w (J b)) =
    .ok (tab3 (flTag dt v) fun b r c => weightJ w (J b) c r) := transpose_3 ..
  have hm : matmulT (tab3 (flTag dt v) fun b => weightJ w (J b)) (tab3 (flTag dt v) fun b r c => weightJ w (J b) c r) =
    .ok (tab3 (flTag dt v) fun b r c => ∑ x, weightJ w (J b) r x * weightJ w (J b) c x) := matmul_3 ..
  rw [ht, ok_bind, hm, ok_bind, bin_3M, ok_bind]
  have key : ∀ A : Fin (N * R) → Matrix (Fin 6) (Fin 6) ℝ,
      (∀ b, A b = dlsMatrix (weightJ w (J b)) (weightDx w (deltaPose (m b) (tp b.divNat) (tq b.divNat))) reg lm) →
      (do
        let a ← solveT (tab3 (flTag dt v) A)
          (tab3 (flTag dt v) fun b k (_ : Fin 1) => weightDx w (deltaPose (m b) (tp b.divNat) (tq b.divNat)) k)
        let x ← Except.ok (tab3 (flTag dt v) fun b r c => weightJ w (J b) c r)
        let dq ← matmulT x a
        pure (dq, tab3 (flTag dt v) fun b k (_ : Fin 1) => deltaPose (m b) (tp b.divNat) (tq b.divNat) k)) =
      (.ok (tab3 (flTag dt v) fun b k (_ : Fin 1) => (ikStepKernel (m b) (tp b.divNat) (tq b.divNat) (J b) reg lm w).1 k,
        tab3 (flTag dt v) fun b k (_ : Fin 1) => (ikStepKernel (m b) (tp b.divNat) (tq b.divNat) (J b) reg lm w).2 k) :
        Except Err (Tn ℝ × Tn ℝ)) := by
    intro A hA
    rw [solve_3 _ _ _ fun b => by rw [hA]; exact hs b, ok_bind, ok_bind, matmul_3, ok_bind, pure_ok]
    simp only [hA]
    rfl
  by_cases h : 0 < lm
  · rw [if_pos h]
    have e : bin (· * ·) (tab3 (flTag dt v) fun (b : Fin (N * R)) k (_ : Fin 1) => weightDx w (deltaPose (m b) (tp b.divNat) (tq b.divNat)) k)
        (tab3 (flTag dt v) fun b k (_ : Fin 1) => weightDx w (deltaPose (m b) (tp b.divNat) (tq b.divNat)) k) =
        .ok (tab3 (flTag dt v) fun b k (_ : Fin 1) => weightDx w (deltaPose (m b) (tp b.divNat) (tq b.divNat)) k *
          weightDx w (deltaPose (m b) (tp b.divNat) (tq b.divNat)) k) := bin_3 ..
    rw [e, ok_bind, sumMid_3, ok_bind, map_3, show (tab3 (flTag dt v) J).tag = flTag dt v from rfl, eyeN_tab, bin_n11, ok_bind, bin_3, ok_bind]
    refine key _ fun b => ?_
    rw [dlsMatrix, if_pos h]
    ext r c
    simp [Matrix.mul_apply]
  · rw [if_neg h, pure_ok, ok_bind]
    refine key _ fun b => ?_
    rw [dlsMatrix, if_neg h]
    ext r c
    simp [Matrix.mul_apply]

end
end PK
