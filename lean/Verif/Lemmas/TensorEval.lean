import Verif.Lemmas.TensorSvd
import Verif.Lemmas.TensorSolve
import Verif.Props.BatchChain
import Verif.Props.IKSolve

/-!
# What the solver computes from a chain, row by row
-/

namespace PK
open Tn Spec Matrix
noncomputable section
open Classical

variable {N R d : ℕ} (dt : DType) (v : Device)

theorem start_one (t : Tag) (hR : 0 < R) (hd : 0 < d) (q : QRow d) :
    startT (tab1 t q) N R d = .ok (tab2 t (flat fun (_ : Fin N) (_ : Fin R) => q)) := by
  have hc : ∀ x : ℕ, d = x * d → x = 1 := fun x h =>
    Nat.eq_of_mul_eq_mul_right hd (by rw [one_mul]; exact h.symm)
  by_cases h1 : N * R = 1
  · have hN := Nat.eq_one_of_mul_eq_one_right h1
    have hR := Nat.eq_one_of_mul_eq_one_left h1
    subst hN; subst hR
    rw [startT, if_pos (by simp), reshapeInfer_eq (n := 1) (by simp [hd]) (by simp)]
    obtain ⟨x, hx, hs, ht, hg⟩ := reshape_at (a := tab1 t q) (s := [1, d]) (by simp)
    rw [hx]
    refine congrArg Except.ok (eq_tab2 (by simpa using hs) ht fun b j => ?_)
    have hb := b.2
    have hb' : b.val = 0 := by omega
    rw [hb', hg _ [j.val] (valid2.2 ⟨by omega, j.2⟩) (valid1.2 j.2) (by simp [ravel])]
    exact tab1_get t q j
  · by_cases h2 : R = 1
    · subst h2
      rw [startT, if_neg, if_pos (by simp)]
      · rw [repeatT, if_neg (by simp)]
        refine congrArg Except.ok (eq_tab2 (by simp) rfl fun b j => ?_)
        refine (ofFn_get (by simpa [ValidIx] using b.2)).trans ?_
        have e : (List.zipWith (· % ·) [b.val, j.val] (List.replicate ([N, 1].length - (tab1 t q).shape.length) 1 ++ (tab1 t q).shape)).drop
            ([N, 1].length - (tab1 t q).shape.length) = [j.val] := by
          simp [Nat.mod_eq_of_lt j.2]
        rw [e, tab1_get]
        rfl
      · intro hh
        exact h1 (hc _ (by simpa [mul_comm, mul_left_comm] using hh))
    · rw [startT, if_neg, if_neg, if_pos (by simp)]
      · have e : unsqueezeAt (tab1 t q) 0 = tab2 t fun (_ : Fin 1) j => q j :=
          eq_tab2 rfl rfl fun i j => (ofFn_get (valid2.2 ⟨i.2, j.2⟩)).trans (tab1_get t q j)
        rw [e, repeatT, if_neg (by simp)]
        refine congrArg Except.ok (eq_tab2 (by simp) rfl fun b j => ?_)
        refine (ofFn_get (by simpa [ValidIx] using b.2)).trans ?_
        have e : (List.zipWith (· % ·) [b.val, j.val] (List.replicate ([N * R, 1].length - (tab2 t fun (_ : Fin 1) j => q j).shape.length) 1 ++
            (tab2 t fun (_ : Fin 1) j => q j).shape)).drop
            ([N * R, 1].length - (tab2 t fun (_ : Fin 1) j => q j).shape.length) = [0, j.val] := by
          simp [Nat.mod_eq_of_lt j.2, Nat.mod_one]
        rw [e]
        exact tab2_get t (fun (_ : Fin 1) j => q j) 0 j
      · intro hh
        exact h2 (hc _ (by simpa [mul_comm, mul_left_comm] using hh))
      · intro hh
        exact h1 (hc _ (by simpa [mul_comm, mul_left_comm] using hh))

/-! ## Targets -/

theorem target_rows (T : Fin N → M4) :
    targetT (tab3 (flTag dt v) T) = .ok (tab2 (flTag dt v) fun i => posPart (T i),
      tab2 (flTag dt v) fun i => (matrixToQuaternion (rotPart (T i))).vec) := by
  have e : tab3 (flTag dt v) T = ofM (flTag dt v) [N] 4 4 fun i => at1 T (i.headD 0) := tab3_M ..
  rw [targetT, e, posColumn_M, ok_bind, rotBlock_M, ok_bind, matrixToQuaternion_M, ok_bind, pure_ok, ofV_tab2, ofV_tab2]
  congr 2
  · refine congrArg (tab2 _) (funext fun i => ?_)
    exact congrArg (fun x => posPart (Matrix.of x)) (at1_val T i)
  · refine congrArg (tab2 _) (funext fun i => ?_)
    exact congrArg (fun x => (matrixToQuaternion (rotPart (Matrix.of x))).vec) (at1_val T i)

/-! ## Chain -/

/-- the kernel of one row of joint values -/
def rowKernel (rf : Frame) (rest : List Frame) (T : M4) (reg lm : ℝ) (w : Option (Fin 6 → ℝ)) (x : Fin d → ℝ) :
    (Fin d → ℝ) × (Fin 6 → ℝ) :=
  ikStepKernel (poseAt (serialRoot rf rest) (List.ofFn fun j (_ : Fin 1) => x j) (posOf (serialRoot rf rest) (lastName rf rest)) 0)
    (posPart T) (matrixToQuaternion (rotPart T))
    (Matrix.of fun k (j : Fin d) => ((jacCols rf rest (List.ofFn fun j (_ : Fin 1) => x j)).getD j fun _ _ => 0) 0 k) reg lm w

variable {rf : Frame} {rest : List Frame}

theorem colsOf_tab {B : ℕ} (t : Tag) (q : Fin B → Fin d → ℝ) (b : Fin B) :
    (colsOf B d (tab2 t q)).map (fun c (_ : Fin 1) => c b) = List.ofFn fun j (_ : Fin 1) => q b j := by
  rw [colsOf, List.map_map]
  refine List.ext_getElem (by simp) fun k h1 h2 => ?_
  simp only [List.length_map, List.length_range] at h1
  simp only [List.getElem_map, List.getElem_range, List.getElem_ofFn, Function.comp_apply]
  funext _
  exact tab2_get t q b ⟨k, h1⟩

theorem pose_row (h : WF (serialRoot rf rest)) {B : ℕ} (t : Tag) (q : Fin B → Fin d → ℝ) (b : Fin B) {f : Frame}
    (hf : f ∈ preorder (serialRoot rf rest)) :
    poseAt (serialRoot rf rest) (colsOf B d (tab2 t q)) (posOf (serialRoot rf rest) f.name) b =
      poseAt (serialRoot rf rest) (List.ofFn fun j (_ : Fin 1) => q b j) (posOf (serialRoot rf rest) f.name) 0 := by
  rw [← colsOf_tab t q b]
  obtain ⟨pp, hpp, hpl⟩ := exists_path hf
  rw [h.pose_path _ hpp hpl, h.pose_path _ hpp hpl]
  congr 1
  funext j
  simp only [colVal, List.getD, List.getElem?_map]
  cases (colsOf B d (tab2 t q))[column (serialRoot rf rest) j]? <;> rfl

/-- Jacobian and end poses of all rows -/
theorem jacobian_rows (h : WF (serialRoot rf rest)) (hd : d = (pathJoints (rf :: rest)).length) {B : ℕ} (q : Fin B → Fin d → ℝ)
    (junk : List ℕ → ℝ) :
    ((serialOf rf rest).tensors dt v).jacobian junk (tab2 (flTag dt v) q) = .ok
      (tab3 (flTag dt v) fun b r (j : Fin d) => ((jacCols rf rest (List.ofFn fun j (_ : Fin 1) => q b j)).getD j fun _ _ => 0) 0 r,
       tab3 (flTag dt v) fun b => poseAt (serialRoot rf rest) (List.ofFn fun j (_ : Fin 1) => q b j)
         (posOf (serialRoot rf rest) (lastName rf rest)) 0) := by
  subst hd
  have hjt := jacTables_serial h
  have hth : HasVec (tab2 (flTag dt v) q) [B] (pathJoints (rf :: rest)).length (flTag dt v) := ⟨rfl, rfl⟩
  obtain ⟨fl, -, hfn, hfm⟩ := exists_last rf rest
  rw [SerialT.jacobian, oneRowT_two hth, ok_bind, fk_serial h hth, ok_bind, jacobianOf_poses hjt, ok_bind, eefPose hjt,
    ok_bind, pure_ok, ofM_tab3, ofM_tab3]
  have hl : (movingJoints (serialRoot rf rest)).length = (pathJoints (rf :: rest)).length := (pathJoints_length _ _).symm
  have hE : ∀ b : Fin B, poseAt (serialRoot rf rest) (colsOf B (pathJoints (rf :: rest)).length (tab2 (flTag dt v) q))
      (posOf (serialRoot rf rest) (lastName rf rest)) b = poseAt (serialRoot rf rest) (List.ofFn fun j (_ : Fin 1) => q b j)
         (posOf (serialRoot rf rest) (lastName rf rest)) 0 := by
    intro b
    rw [← hfn]
    exact pose_row h _ q b hfm
  congr 2
  · refine congrArg (tab3 _) (funext fun b => funext fun r => funext fun j => ?_)
    have hj : j.val < (dofFrames rf rest).length := by rw [dofFrames_length]; exact j.2
    have hk := List.getElem?_eq_getElem hj
    have e := jcolN_serial hk (B := B)
      (poseAt (serialRoot rf rest) (colsOf B (movingJoints (serialRoot rf rest)).length (tab2 (flTag dt v) q))) b
    refine (congrFun e r).trans ?_
    rw [hl, hE b, pose_row h _ q b (dofFrames_mem (List.getElem_mem hj)).1]
    simp [jacCols, List.getD_eq_getElem?_getD, hk]
  · refine congrArg (tab3 _) (funext fun b => ?_)
    rw [← hE b]
    funext r c
    show pN (serialRoot rf rest) B _ (serialOf rf rest).eefIdx b.val r c = _
    rw [pN, dif_pos b.2, hl]
    rfl

theorem ikEval_rows (h : WF (serialRoot rf rest)) (hd : d = (pathJoints (rf :: rest)).length) (hR : 0 < R) (T : Fin N → M4)
    {reg : ℝ} (hreg : 0 < reg) (lm : ℝ) (w : Option (Fin 6 → ℝ)) (q : Fin (N * R) → Fin d → ℝ) (junk : List ℕ → ℝ) :
    ((serialOf rf rest).tensors dt v).ikEval junk (tab3 (flTag dt v) T) (regMatrixT (flTag dt v) reg) R lm
      (w.map (tab1 (flTag dt v))) (tab2 (flTag dt v) q) = .ok
      (tab3 (flTag dt v) fun b k (_ : Fin 1) => (rowKernel rf rest (T b.divNat) reg lm w (q b)).1 k,
       tab3 (flTag dt v) fun b k (_ : Fin 1) => (rowKernel rf rest (T b.divNat) reg lm w (q b)).2 k) := by
  rw [SerialT.ikEval, target_rows, ok_bind]
  dsimp only
  rw [jacobian_rows dt v h hd, ok_bind]
  refine ikStep_rows dt v hR _ (fun i => posPart (T i)) (fun i => matrixToQuaternion (rotPart (T i)))
    (fun b => Matrix.of fun r (j : Fin d) => ((jacCols rf rest (List.ofFn fun j (_ : Fin 1) => q b j)).getD j fun _ _ => 0) 0 r)
    reg lm w fun b => ?_
  rw [dlsMatrix_eq]
  exact ((Matrix.isUnit_iff_isUnit_det _).1 (gram_isUnit _ (damping_pos hreg _ _))).ne_zero

theorem ikErr_rows (h : WF (serialRoot rf rest)) (hd : d = (pathJoints (rf :: rest)).length) (hR : 0 < R) (T : Fin N → M4)
    (reg lm : ℝ) (w : Option (Fin 6 → ℝ)) (q : Fin (N * R) → Fin d → ℝ) (junk : List ℕ → ℝ) :
    ((serialOf rf rest).tensors dt v).ikErr junk (tab3 (flTag dt v) T) R (tab2 (flTag dt v) q) = .ok
      (tab3 (flTag dt v) fun b k (_ : Fin 1) => (rowKernel rf rest (T b.divNat) reg lm w (q b)).2 k) := by
  have hjt := jacTables_serial h
  have hth : HasVec (tab2 (flTag dt v) q) [N * R] (pathJoints (rf :: rest)).length (flTag dt v) := by subst hd; exact ⟨rfl, rfl⟩
  obtain ⟨fl, -, hfn, hfm⟩ := exists_last rf rest
  rw [SerialT.ikErr, target_rows, ok_bind]
  dsimp only
  rw [fk_serial h hth, ok_bind, eefPose hjt, ok_bind, ofM_tab3]
  have hE : ∀ b : Fin (N * R), (fun r c => pN (serialRoot rf rest) (N * R) (tab2 (flTag dt v) q) (serialOf rf rest).eefIdx b r c) =
      poseAt (serialRoot rf rest) (List.ofFn fun j (_ : Fin 1) => q b j)
         (posOf (serialRoot rf rest) (lastName rf rest)) 0 := by
    intro b
    have hl : (movingJoints (serialRoot rf rest)).length = d := by rw [hd]; exact (pathJoints_length _ _).symm
    have := pose_row h (flTag dt v) q b hfm
    rw [hfn] at this
    rw [← this]
    simp only [pN, b.2, dif_pos, hl]
    rfl
  simp only [List.headD_cons, hE]
  have e : reshapeInfer (tab3 (flTag dt v) fun b : Fin (N * R) => poseAt (serialRoot rf rest) (List.ofFn fun j (_ : Fin 1) => q b j)
         (posOf (serialRoot rf rest) (lastName rf rest)) 0) [R, 4, 4] = _ :=
    (reshapeInfer_eq (n := N) (by simp [hR]) (by show N * R * 16 = _; simp [mul_assoc])).trans (reshape_44 (flTag dt v) _)
  refine (congrArg (· >>= _) e).trans ?_
  rw [ok_bind]
  have e2 := deltaPose_rows (R := R) dt v (fun i => at1 (fun b : Fin (N * R) => (poseAt (serialRoot rf rest) (List.ofFn fun j (_ : Fin 1) => q b j)
         (posOf (serialRoot rf rest) (lastName rf rest)) 0 : Fin 4 → Fin 4 → ℝ)) (i.headD 0 * R + i.getD 1 0))
    (fun i => posPart (T i)) (fun i => matrixToQuaternion (rotPart (T i))) none
  refine (congrArg (· >>= _) e2).trans ?_
  rw [ok_bind, pure_ok]
  refine congrArg (fun x => Except.ok (tab3 _ x)) (funext fun b => funext fun k => funext fun _ => ?_)
  obtain ⟨i, r, rfl⟩ : ∃ i r, b = pr i r := ⟨_, _, (pr_eta b).symm⟩
  rw [pr_divNat, pr_modNat, show [i.val, r.val].headD 0 * R + [i.val, r.val].getD 1 0 = (pr i r).val from rfl]
  exact congrArg (fun x => deltaPose (Matrix.of x) (posPart (T i)) (matrixToQuaternion (rotPart (T i))) k) (at1_val _ (pr i r))

/-! ## Non-finite rows -/

/-- the evaluation of one row -/
def rowEval (rf : Frame) (rest : List Frame) (T : Fin N → M4) (reg lm : ℝ) (w : Option (Fin 6 → ℝ))
    (bad : ℕ → List Fl → (ℕ → Fl) × (ℕ → Fl)) : Eval N d := fun i q =>
  if ∃ y ∈ List.ofFn q, y.isFinite = false then
    (fun j => (bad i (List.ofFn q)).1 j, fun a => (bad i (List.ofFn q)).2 a)
  else
    let k := rowKernel rf rest (T i) reg lm w fun j => (q j).numPart
    (fun j => .fin (k.1 j), fun a => .fin (k.2 a))

theorem finPart_tab {n : ℕ} (t : Tag) (q : Fin n → QRow d) :
    finPart (tab2 t q) = tab2 t fun b j => (q b j).numPart :=
  eq_tab2 rfl rfl fun i j => (ofFn_get (valid2.2 ⟨i.2, j.2⟩)).trans (by rw [tab2_get])

theorem rowFl_tab {n : ℕ} (t : Tag) (q : Fin n → QRow d) (b : Fin n) : rowFl (tab2 t q) b.val = List.ofFn (q b) := by
  rw [rowFl]
  refine List.ext_getElem (by simp) fun k h1 h2 => ?_
  simp only [List.length_ofFn] at h2
  simp only [List.getElem_map, List.getElem_range, List.getElem_ofFn]
  exact tab2_get t q b ⟨k, h2⟩

theorem evalFl_rowWise (h : WF (serialRoot rf rest)) (hd : d = (pathJoints (rf :: rest)).length) (hR : 0 < R) (T : Fin N → M4)
    {reg : ℝ} (hreg : 0 < reg) (lm : ℝ) (w : Option (Fin 6 → ℝ)) (bad : ℕ → List Fl → (ℕ → Fl) × (ℕ → Fl)) (junk : List ℕ → ℝ) :
    RowWise (flTag dt v) R (((serialOf rf rest).tensors dt v).evalFl junk (tab3 (flTag dt v) T) (regMatrixT (flTag dt v) reg) R lm
      (w.map (tab1 (flTag dt v))) bad) (rowEval (d := d) rf rest T reg lm w bad) := by
  have hdiv : ∀ b : Fin (N * R), b.val / R = b.divNat.val := fun b => rfl
  constructor
  · intro q
    rw [SerialT.evalFl]
    dsimp only
    rw [finPart_tab, ikEval_rows dt v h hd hR T hreg, ok_bind, pure_ok]
    congr 2
    · refine eq_tab3 rfl rfl fun b k c => (ofFn_get (valid3.2 ⟨b.2, k.2, c.2⟩)).trans ?_
      simp only [List.headD_cons, List.getD_cons_succ, List.getD_cons_zero, rowFl_tab, hdiv, tab3_get, rowEval]
      split_ifs <;> rfl
    · refine eq_tab3 rfl rfl fun b k c => (ofFn_get (valid3.2 ⟨b.2, k.2, c.2⟩)).trans ?_
      simp only [List.headD_cons, List.getD_cons_succ, List.getD_cons_zero, rowFl_tab, hdiv, tab3_get, rowEval]
      split_ifs <;> rfl
  · intro q
    rw [SerialT.evalFl]
    dsimp only
    rw [finPart_tab, ikErr_rows dt v h hd hR T reg lm w, ok_bind, pure_ok]
    refine congrArg Except.ok (eq_tab3 rfl rfl fun b k c => (ofFn_get (valid3.2 ⟨b.2, k.2, c.2⟩)).trans ?_)
    simp only [List.headD_cons, List.getD_cons_succ, List.getD_cons_zero, rowFl_tab, hdiv, tab3_get, rowEval]
    split_ifs <;> rfl

theorem rowEval_realises (h : WF (serialRoot rf rest)) (hd : d = (pathJoints (rf :: rest)).length) (T : Fin N → M4)
    (reg lm : ℝ) (w : Option (Fin 6 → ℝ)) {bad : ℕ → List Fl → (ℕ → Fl) × (ℕ → Fl)}
    (hbad : ∀ i l, (∃ y ∈ l, y.isFinite = false) → ∃ a < 6, ((bad i l).2 a).isFinite = false) :
    Realises (serialOf rf rest) T reg lm w (rowEval (d := d) rf rest T reg lm w bad) := by
  constructor
  · intro i q
    refine ⟨_, _, jacobianTensor_ok h _ (by rw [List.length_ofFn, hd]), by rw [jacCols, List.length_map, dofFrames_length, hd], ?_⟩
    have : ¬ ∃ y ∈ List.ofFn fun j => Fl.fin (q j), y.isFinite = false := by
      rintro ⟨y, hy, hf⟩
      obtain ⟨j, rfl⟩ := (List.mem_ofFn' _ _).1 hy
      simp [Fl.isFinite] at hf
    simp only [rowEval, if_neg this]
    rfl
  · intro i q ⟨j, hj⟩
    have hq : ∃ y ∈ List.ofFn q, y.isFinite = false := ⟨q j, (List.mem_ofFn' _ _).2 ⟨j, rfl⟩, hj⟩
    obtain ⟨a, ha, hf⟩ := hbad i _ hq
    exact ⟨⟨a, ha⟩, by simpa only [rowEval, if_pos hq] using hf⟩

end
end PK
