import Verif.Lemmas.TensorKernel

/-!
# `delta_pose` and the SVD kernel on tensors, row by row
-/

namespace PK
open Tn Matrix
noncomputable section
open Classical

namespace Tn
section
variable {α β γ : Type} [Inhabited α] [Inhabited β] [Inhabited γ] {n m k : ℕ} (t : Tag)

theorem bin_scalar (f : ℝ → ℝ → ℝ) (a : Fin n → Fin m → ℝ) (x : ℝ) :
    bin f (tab2 t a) (ofFn t [] fun _ => x) = .ok (tab2 t fun i j => f (a i j) x) := by
  rw [bin_bcast (t := t) (s := [n, m]) (s' := []) (r := [n, m]) f rfl rfl rfl rfl (bshape_nil_right _)]
  refine congrArg Except.ok (eq_tab2 rfl rfl fun i j => ?_)
  have hv := valid2.2 ⟨i.2, j.2⟩
  rw [ofFn_get hv, bidx_valid hv, tab2_get, bidx_nil, ofFn_get (by exact List.Forall₂.nil)]

theorem bin_scalar_left (f : ℝ → ℝ → ℝ) (a : Fin n → Fin m → ℝ) (x : ℝ) :
    bin f (ofFn t [] fun _ => x) (tab2 t a) = .ok (tab2 t fun i j => f x (a i j)) := by
  rw [bin_bcast (t := t) (s := []) (s' := [n, m]) (r := [n, m]) f rfl rfl rfl rfl (bshape_nil_left _)]
  refine congrArg Except.ok (eq_tab2 rfl rfl fun i j => ?_)
  have hv := valid2.2 ⟨i.2, j.2⟩
  rw [ofFn_get hv, bidx_valid hv, tab2_get, bidx_nil, ofFn_get (by exact List.Forall₂.nil)]

theorem bin_col (f : ℝ → ℝ → ℝ) (a : Fin n → Fin m → ℝ) (x : Fin n → ℝ) :
    bin f (tab2 t a) (tab2 t fun i (_ : Fin 1) => x i) = .ok (tab2 t fun i j => f (a i j) (x i)) := by
  rw [bin_bcast (t := t) (s := [n, m]) (s' := [n, 1]) (r := [n, m]) f rfl rfl rfl rfl (bshape_FB1 _ _)]
  refine congrArg Except.ok (eq_tab2 rfl rfl fun i j => ?_)
  have hv := valid2.2 ⟨i.2, j.2⟩
  rw [ofFn_get hv, bidx_valid hv, tab2_get, bidx_F1 (B := m) i.2]
  exact congrArg (f _) (tab2_get t (fun i (_ : Fin 1) => x i) i 0)

theorem diag_2 (a : Fin n → Fin m → ℝ) :
    diagEmbed (tab2 t a) = .ok (tab3 t fun i r c => Matrix.diagonal (a i) r c) := by
  rw [diagEmbed]
  show Except.ok _ = _
  refine congrArg Except.ok (eq_tab3 rfl rfl fun i r c => (ofFn_get (valid3.2 ⟨i.2, r.2, c.2⟩)).trans ?_)
  rw [Matrix.diagonal_apply]
  simp only [List.getD_cons_succ, List.getD_cons_zero, List.headD_cons, Fin.ext_iff]
  split_ifs with h
  · exact tab2_get t a i r
  · rfl

theorem rows_3 (a : Fin n → Fin m → Fin k → ℝ) {b : ℕ} (hb : b ≤ m) :
    sliceMid (tab3 t a) b = .ok (tab3 t fun i (r : Fin b) c => a i ⟨r, by omega⟩ c) := by
  rw [sliceMid, tab3_M, sliceRows_M _ _ _ _ _ b hb, ofM_tab3]
  simp only [List.headD_cons, at1_val]

theorem corner (a : Fin (n + 1) → Fin (m + 1) → ℝ) :
    (do select0 (← select0 (tab2 t a) 0) 0) = .ok (ofFn t [] fun _ => a 0 0) := by
  have e : select0 (tab2 t a) 0 = .ok (ofFn t [m + 1] fun i => (tab2 t a).get (0 :: i)) := by
    rw [select0]
    show (if 0 < n + 1 then _ else _) = _
    rw [if_pos (Nat.succ_pos n)]
    rfl
  rw [e, ok_bind, select0]
  show (if 0 < m + 1 then _ else _) = _
  rw [if_pos (Nat.succ_pos m)]
  refine congrArg Except.ok (ofFn_congr fun i hi => ?_)
  obtain rfl : i = [] := by cases hi; rfl
  refine (ofFn_get (valid1.2 (Nat.succ_pos m))).trans (tab2_get t a 0 0)

theorem matmul_bad {k' l : ℕ} (h : k ≠ k') (a : Fin n → Fin m → Fin k → ℝ) (b : Fin n → Fin k' → Fin l → ℝ) :
    matmulT (tab3 t a) (tab3 t b) = .error .runtimeError := by
  rw [matmulT]
  show (if k = k' then _ else _) = _
  rw [if_neg h]

theorem setHalves (a b : Fin n → Fin 3 → ℝ) (o : Fin n → Fin 6 → Fin 1 → ℝ) :
    (do setMidFrom (← setMid (tab3 t o) 3 (tab3 t fun i r (_ : Fin 1) => a i r)) 3 (tab3 t fun i r (_ : Fin 1) => b i r)) =
      .ok (tab3 t fun i r (_ : Fin 1) => cat33 (a i) (b i) r) := by
  have e : setMid (tab3 t o) 3 (tab3 t fun i r (_ : Fin 1) => a i r) =
      .ok (tab3 t fun i r c => if h : r.val < 3 then a i ⟨r, h⟩ else o i r c) := by
    rw [tab3_M, tab3_M, setMid_M _ _ _ _ (by omega), ofM_tab3]
    simp only [List.headD_cons, at1_val]
  rw [e, ok_bind, setMidFrom]
  show (valueFor _ [n, 3, 1] >>= _) = _
  rw [valueFor_same (by rfl), ok_bind, pure_ok]
  refine congrArg Except.ok (eq_tab3 rfl rfl fun i r c => (ofFn_get (valid3.2 ⟨i.2, r.2, c.2⟩)).trans ?_)
  obtain rfl : c = 0 := Subsingleton.elim _ _
  have h' : ∀ x : Fin 3, (tab3 t fun i r (_ : Fin 1) => b i r).get [i.val, x.val, 0] = b i x := fun x => tab3_get t _ i x 0
  by_cases h : r.val < 3
  · rw [if_pos (by exact h), tab3_get, dif_pos h]
    fin_cases r <;> first | rfl | (simp at h)
  · rw [if_neg (by exact h)]
    fin_cases r
    · simp at h
    · simp at h
    · simp at h
    · exact h' 0
    · exact h' 1
    · exact h' 2
end
end Tn

variable {N R d : ℕ} (dt : DType) (v : Device)

/-- `delta_pose`, with and without a buffer for the result -/
theorem deltaPose_rows (m : List ℕ → Fin 4 → Fin 4 → ℝ) (tp : Fin N → V3) (tq : Fin N → Quat)
    (o : Option (Fin (N * R) → Fin 6 → Fin 1 → ℝ)) :
    deltaPoseT (ofM (flTag dt v) [N, R] 4 4 m) (tab2 (flTag dt v) tp) (tab2 (flTag dt v) fun i => (tq i).vec)
      (o.map (tab3 (flTag dt v))) =
    .ok (tab3 (flTag dt v) fun (b : Fin (N * R)) k (_ : Fin 1) => deltaPose (.of (m [b.divNat.val, b.modNat.val])) (tp b.divNat) (tq b.divNat) k,
      tab3 (flTag dt v) fun (b : Fin (N * R)) k (_ : Fin 1) =>
        head3 (deltaPose (.of (m [b.divNat.val, b.modNat.val])) (tp b.divNat) (tq b.divNat)) k,
      tab3 (flTag dt v) fun (b : Fin (N * R)) k (_ : Fin 1) =>
        tail3 (deltaPose (.of (m [b.divNat.val, b.modNat.val])) (tp b.divNat) (tq b.divNat)) k) := by
  rw [deltaPoseT]
  simp only [Tn.sub]
  have h1 := pos_rows dt v (R := R) m tp tq
  have h2 := rot_rows dt v (R := R) m tp tq
  simp only [do_assoc] at h1 h2 ⊢
  rw [h1, ok_bind, h2, ok_bind]
  cases o with
  | none =>
    show (catMid _ _ >>= _) = _
    rw [cat_33, ok_bind, pure_ok]
    simp only [cat33_head_tail]
  | some o =>
    show ((setMid (tab3 _ o) 3 _ >>= fun x => setMidFrom x 3 _) >>= _) = _
    rw [setHalves, ok_bind, pure_ok]
    simp only [cat33_head_tail]

theorem tab3_cast {n m k k' : ℕ} (t : Tag) (h : k = k') (f : Fin n → Fin m → Fin k → ℝ) :
    tab3 t f = tab3 t fun i r (c : Fin k') => f i r (Fin.cast h.symm c) := by subst h; rfl

/-- what the SVD kernel returns, row by row -/
theorem ikStepSvd_prep (hR : 0 < R) (svd : Tn ℝ → Tn ℝ × Tn ℝ × Tn ℝ) (m : Fin (N * R) → M4) (tp : Fin N → V3)
    (tq : Fin N → Quat) (J : Fin (N * R) → Matrix (Fin 6) (Fin d) ℝ) (reg lm : ℝ) (w : Option (Fin 6 → ℝ))
    (S : Fin (N * R) → SVD d)
    (hs : svd (tab3 (flTag dt v) fun b => weightJ w (J b)) =
      (tab3 (flTag dt v) fun b => (S b).U, tab2 (flTag dt v) fun b => (S b).D, tab3 (flTag dt v) fun b => (S b).Vh))
    (dxw : Fin (N * R) → Fin 6 → ℝ) (hx : dxw = fun b => weightDx w (deltaPose (m b) (tp b.divNat) (tq b.divNat))) :
    ikStepSvdT svd (tab3 (flTag dt v) m) (tab2 (flTag dt v) tp) (tab2 (flTag dt v) fun i => (tq i).vec) (tab3 (flTag dt v) J)
      (regMatrixT (flTag dt v) reg) R lm (w.map (tab1 (flTag dt v))) = do
    let total ← matmulT (tab3 (flTag dt v) fun b (r : Fin d) (c : Fin (min 6 d)) => (S b).Vh ⟨c.val, by omega⟩ r *
        ((S b).D c / ((S b).D c ^ 2 + if 0 < lm then reg + lm * ∑ i, dxw b i * dxw b i else reg)))
      (tab3 (flTag dt v) fun b r c => (S b).U c r)
    let dq ← matmulT total (tab3 (flTag dt v) fun b k (_ : Fin 1) => dxw b k)
    return (dq, tab3 (flTag dt v) fun b k (_ : Fin 1) => deltaPose (m b) (tp b.divNat) (tq b.divNat) k) := by
  subst hx
  rw [ikStepSvdT, kernelDx_rows _ _ hR, ok_bind, weighJ_rows, ok_bind, weighDx_rows, ok_bind, regMatrix_tab]
  simp only [Tn.add, Tn.mul, Tn.div, hs]
  have hc := corner (flTag dt v) (n := 5) (m := 5) fun i j => (reg • (1 : Matrix (Fin 6) (Fin 6) ℝ)) i j
  rw [do_assoc, hc, ok_bind]
  have hcore : (reg • (1 : Matrix (Fin 6) (Fin 6) ℝ)) 0 0 = reg := by simp
  rw [hcore]
  have ht : transposeLast (tab3 (flTag dt v) fun b => (S b).U) = .ok (tab3 (flTag dt v) fun b r c => (S b).U c r) :=
    transpose_3 ..
  have hV : sliceMid (tab3 (flTag dt v) fun b => (S b).Vh) (min 6 d) =
    .ok (tab3 (flTag dt v) fun b (r : Fin (min 6 d)) c => (S b).Vh ⟨r, by omega⟩ c) := rows_3 _ _ (Nat.min_le_right 6 d)
  have hn : (tab2 (flTag dt v) fun b => (S b).D).shape.getD 1 0 = min 6 d := rfl
  have key : ∀ (lam : Fin (N * R) → ℝ) (X : Tn ℝ),
      bin (· + ·) (tab2 (flTag dt v) fun b (c : Fin (min 6 d)) => (S b).D c ^ 2) X =
        .ok (tab2 (flTag dt v) fun b (c : Fin (min 6 d)) => (S b).D c ^ 2 + lam b) →
      (do
        let denom ← bin (· + ·) (map (· ^ 2) (tab2 (flTag dt v) fun b => (S b).D)) X
        let prod ← bin (· / ·) (tab2 (flTag dt v) fun b => (S b).D) denom
        let inverted ← diagEmbed prod
        let Vh ← sliceMid (tab3 (flTag dt v) fun b => (S b).Vh) ((tab2 (flTag dt v) fun b => (S b).D).shape.getD 1 0)
        let total ← matmulT (← matmulT (← transposeLast Vh) inverted) (← transposeLast (tab3 (flTag dt v) fun b => (S b).U))
        let dq ← matmulT total (tab3 (flTag dt v) fun b k (_ : Fin 1) => weightDx w (deltaPose (m b) (tp b.divNat) (tq b.divNat)) k)
        return (dq, tab3 (flTag dt v) fun b k (_ : Fin 1) => deltaPose (m b) (tp b.divNat) (tq b.divNat) k) :
          Except Err (Tn ℝ × Tn ℝ)) = do
      let total ← matmulT (tab3 (flTag dt v) fun b (r : Fin d) (c : Fin (min 6 d)) => (S b).Vh ⟨c.val, by omega⟩ r *
          ((S b).D c / ((S b).D c ^ 2 + lam b)))
        (tab3 (flTag dt v) fun b r c => (S b).U c r)
      let dq ← matmulT total (tab3 (flTag dt v) fun b k (_ : Fin 1) => weightDx w (deltaPose (m b) (tp b.divNat) (tq b.divNat)) k)
      return (dq, tab3 (flTag dt v) fun b k (_ : Fin 1) => deltaPose (m b) (tp b.divNat) (tq b.divNat) k) := by
    intro lam X hX
    rw [map_2, hX, ok_bind, bin_2, ok_bind, diag_2, ok_bind, hn, hV, ok_bind, transpose_3, ok_bind, matmul_3, ok_bind, ht, ok_bind]
    simp only [Matrix.diagonal_apply, mul_ite, mul_zero, Finset.sum_ite_eq', Finset.sum_ite_eq, Finset.mem_univ, if_true]
  by_cases h : 0 < lm
  · rw [if_pos h]
    have e : bin (· * ·) (tab3 (flTag dt v) fun (b : Fin (N * R)) k (_ : Fin 1) => weightDx w (deltaPose (m b) (tp b.divNat) (tq b.divNat)) k)
        (tab3 (flTag dt v) fun b k (_ : Fin 1) => weightDx w (deltaPose (m b) (tp b.divNat) (tq b.divNat)) k) =
        .ok (tab3 (flTag dt v) fun b k (_ : Fin 1) => weightDx w (deltaPose (m b) (tp b.divNat) (tq b.divNat)) k *
          weightDx w (deltaPose (m b) (tp b.divNat) (tq b.divNat)) k) := bin_3 ..
    rw [e, ok_bind, sumMid_3, ok_bind, map_3, squeeze_3, bin_scalar_left, ok_bind]
    simp only [if_pos h]
    exact key (fun b => reg + lm * ∑ i, weightDx w (deltaPose (m b) (tp b.divNat) (tq b.divNat)) i *
      weightDx w (deltaPose (m b) (tp b.divNat) (tq b.divNat)) i) _ (bin_col ..)
  · rw [if_neg h, pure_ok, ok_bind]
    simp only [if_neg h]
    exact key (fun _ => reg) _ (bin_scalar ..)

theorem ikStepSvd_rows (hR : 0 < R) (svd : Tn ℝ → Tn ℝ × Tn ℝ × Tn ℝ) (m : Fin (N * R) → M4) (tp : Fin N → V3)
    (tq : Fin N → Quat) (J : Fin (N * R) → Matrix (Fin 6) (Fin d) ℝ) (reg lm : ℝ) (w : Option (Fin 6 → ℝ))
    (S : Fin (N * R) → SVD d)
    (hs : svd (tab3 (flTag dt v) fun b => weightJ w (J b)) =
      (tab3 (flTag dt v) fun b => (S b).U, tab2 (flTag dt v) fun b => (S b).D, tab3 (flTag dt v) fun b => (S b).Vh))
    (hd : 6 ≤ d) (out : Fin (N * R) → (Fin d → ℝ) × (Fin 6 → ℝ))
    (ho : ∀ b, ikStepKernelSvd (m b) (tp b.divNat) (tq b.divNat) (S b) reg lm w = .ok (out b)) :
    ikStepSvdT svd (tab3 (flTag dt v) m) (tab2 (flTag dt v) tp) (tab2 (flTag dt v) fun i => (tq i).vec) (tab3 (flTag dt v) J)
      (regMatrixT (flTag dt v) reg) R lm (w.map (tab1 (flTag dt v))) =
    .ok (tab3 (flTag dt v) fun b k (_ : Fin 1) => (out b).1 k, tab3 (flTag dt v) fun b k (_ : Fin 1) => (out b).2 k) := by
  rw [ikStepSvd_prep dt v hR svd m tp tq J reg lm w S hs _ rfl]
  have h6 : min 6 d = 6 := Nat.min_eq_left hd
  rw [tab3_cast _ h6, matmul_3, ok_bind, matmul_3, ok_bind, pure_ok]
  congr 2
  · refine congrArg (tab3 _) (funext fun b => funext fun k => funext fun _ => ?_)
    have hb := ho b
    rw [ikStepKernelSvd, svdStep, dif_pos h6, ok_bind, pure_ok] at hb
    rw [← Except.ok.inj hb]
    simp only [Matrix.mulVec, dotProduct, Matrix.mul_apply, Matrix.diagonal_apply, Matrix.transpose_apply, Matrix.of_apply,
      Fin.val_cast, mul_ite, mul_zero, Finset.sum_ite_eq', Finset.mem_univ, if_true]
  · refine congrArg (tab3 _) (funext fun b => funext fun k => funext fun _ => ?_)
    have hb := ho b
    rw [ikStepKernelSvd, svdStep, dif_pos h6, ok_bind, pure_ok] at hb
    rw [← Except.ok.inj hb]

theorem ikStepSvd_small (hR : 0 < R) (svd : Tn ℝ → Tn ℝ × Tn ℝ × Tn ℝ) (m : Fin (N * R) → M4) (tp : Fin N → V3)
    (tq : Fin N → Quat) (J : Fin (N * R) → Matrix (Fin 6) (Fin d) ℝ) (reg lm : ℝ) (w : Option (Fin 6 → ℝ))
    (S : Fin (N * R) → SVD d)
    (hs : svd (tab3 (flTag dt v) fun b => weightJ w (J b)) =
      (tab3 (flTag dt v) fun b => (S b).U, tab2 (flTag dt v) fun b => (S b).D, tab3 (flTag dt v) fun b => (S b).Vh))
    (hd : d < 6) :
    ikStepSvdT svd (tab3 (flTag dt v) m) (tab2 (flTag dt v) tp) (tab2 (flTag dt v) fun i => (tq i).vec) (tab3 (flTag dt v) J)
      (regMatrixT (flTag dt v) reg) R lm (w.map (tab1 (flTag dt v))) = .error .runtimeError := by
  rw [ikStepSvd_prep dt v hR svd m tp tq J reg lm w S hs _ rfl, matmul_bad _ (by omega), error_bind]

end
end PK
