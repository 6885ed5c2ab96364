import Verif.Props.BatchT3
import Verif.Lemmas.Euler

/-!
# C124: the constructor `Transform3d(default_batch_size, dtype, device, matrix, rot, pos)`
-/

namespace PK
open Tn Spec Matrix

section
variable {rd : DType → ℝ → ℝ} {n k : ℕ} {d d' dm dp dr : DType} {v v' : Device}

/-! ## `matrix` -/

/-- `Transform3d(matrix=m)` keeps the rows of `m`, its dtype and its device. -/
theorem C124_init_matrix {M : Tn ℝ} (h : HasMat M [n] 4 4 (flTag dm v)) (N : ℕ) (device : Device) :
    ∃ R, T3T.init (some M) none none N d device = .ok R ∧ IsT R n dm v ∧ Honest R ∧ R.kind = .plain ∧
      ∀ i < n, mat R i = matAt 4 4 M [i] := by
  have e := eta3 (a := M) h.1
  rw [h.2] at e
  have hi : initMatrixT (some M) N d device = .ok M := by
    simp only [initMatrixT, h.1]
    rw [if_neg (by simp)]
    simp only [List.cons_append, List.nil_append, List.reverse_cons, List.reverse_nil]
    rw [if_neg (by simp)]
    exact (congrArg (reshapeInfer · [4, 4]) e).trans ((reshapeInfer_box (p := 4) (q := 4) (by omega) (by omega)).trans (congrArg _ e.symm))
  rw [T3T.init, hi, ok_bind]
  simp only [pure_ok, ok_bind]
  exact ⟨_, rfl, h, ⟨rfl, rfl⟩, rfl, fun i _ => rfl⟩

/-- One matrix of shape `(4, 4)` -/
theorem C124_init_matrix_flat {M : Tn ℝ} (h : HasMat M [] 4 4 (flTag dm v)) :
    ∃ R, T3T.init (some M) none none = .ok R ∧ IsT R 1 dm v ∧ Honest R ∧ R.kind = .plain ∧ mat R 0 = matAt 4 4 M [] := by
  have e := eta2 (a := M) h.1
  rw [h.2] at e
  refine ⟨_, (congrArg T3T.ofMatrix e).trans ofMatrix_flat, ⟨rfl, rfl⟩, ⟨rfl, rfl⟩, rfl, ?_⟩
  rw [mat_box (by omega)]
  rfl

/-- Another number of dimensions, or other sizes: `ValueError` -/
theorem C124_init_matrix_refused {M : Tn ℝ} (pos rot : Option (Tn ℝ)) (N : ℕ) (device : Device)
    (h : ∀ s : Shape, s.length ≤ 1 → M.shape ≠ s ++ [4, 4]) : T3T.init (some M) pos rot N d device = .error .valueError := by
  have hi : initMatrixT (some M) N d device = .error .valueError := by
    simp only [initMatrixT]
    split_ifs with h1
    · rfl
    · split
      · rename_i c r l hl
        rw [if_pos]
        by_contra hc
        have hs := congrArg List.reverse hl
        rw [List.reverse_reverse, List.reverse_cons, List.reverse_cons, List.append_assoc] at hs
        have hl' : l.length ≤ 1 := by
          have := congrArg List.length hs
          simp at this
          omega
        refine h l.reverse (by simpa using hl') ?_
        rw [hs]
        have : r = 4 ∧ c = 4 := by omega
        rw [this.1, this.2]
        rfl
      · rfl
  rw [T3T.init, hi]
  rfl

/-- Without a matrix: identities of dtype `dtype` on `device` -/
theorem C124_init_identity : ∃ R, T3T.init none none none n d v = .ok R ∧ IsT R n d v ∧ Honest R ∧ R.kind = .plain ∧
    ∀ i < n, mat R i = 1 := by
  rw [T3T.init]
  simp only [initMatrixT]
  rw [eyes4T_box, ok_bind]
  simp only [pure_ok, ok_bind]
  refine ⟨_, rfl, ⟨rfl, rfl⟩, ⟨rfl, rfl⟩, rfl, fun i hi => ?_⟩
  rw [mat_box hi]
  ext r c
  simp only [Matrix.of_apply, idE, Matrix.one_apply, Fin.ext_iff]

/-! ## `pos` and `rot` -/

/-- A position `(3,)` or positions `(m, 3)`: the number of rows and the position for every row -/
inductive GivesPos (pos : Tn ℝ) (t : Tag) : Option ℕ → (ℕ → V3) → Prop
  | one : HasVec pos [] 3 t → GivesPos pos t none fun _ => vecAt 3 pos []
  | many {m : ℕ} : HasVec pos [m] 3 t → GivesPos pos t (some m) fun i => vecAt 3 pos [i]

/-- A rotation: a quaternion `(4,)` or `(m, 4)`, Euler angles about the rotating axes X, Y, Z `(3,)` or `(m, 3)` with `m ≠ 3`, a matrix
`(3, 3)` or `(m, 3, 3)` -/
inductive GivesRot (rot : Tn ℝ) (t : Tag) : Option ℕ → (ℕ → M3) → Prop
  | quat : HasVec rot [] 4 t → GivesRot rot t none fun _ => quaternionToMatrix (quatAt rot [])
  | quats {m : ℕ} : HasVec rot [m] 4 t → GivesRot rot t (some m) fun i => quaternionToMatrix (quatAt rot [i])
  | euler : HasVec rot [] 3 t → GivesRot rot t none fun _ =>
      elem .x (vecAt 3 rot [] 0) * elem .y (vecAt 3 rot [] 1) * elem .z (vecAt 3 rot [] 2)
  | eulers {m : ℕ} : HasVec rot [m] 3 t → m ≠ 3 → GivesRot rot t (some m) fun i =>
      elem .x (vecAt 3 rot [i] 0) * elem .y (vecAt 3 rot [i] 1) * elem .z (vecAt 3 rot [i] 2)
  | matrix : HasMat rot [] 3 3 t → GivesRot rot t none fun _ => matAt 3 3 rot []
  | matrices {m : ℕ} : HasMat rot [m] 3 3 t → GivesRot rot t (some m) fun i => matAt 3 3 rot [i]

/-- Number of rows after an argument with `mo` rows (`none`: no batch dimension) meets `n` rows; `none`: refused -/
def fit (n : ℕ) (mo : Option ℕ) : Option ℕ :=
  match mo with
  | none => if n = 1 then some 1 else none
  | some m => if m = n ∨ (n = 1 ∧ 1 < m) then some m else none

/-- The matrix with another last column -/
def setP (M : M4) (p : V3) : M4 := .of fun r c => if c = 3 then homog p r else M r c
/-- The matrix with other first three columns -/
def setR (M : M4) (R : M3) : M4 := .of fun r c => if c = 3 then M r 3 else mkHom R 0 r c

theorem promote_wider {a b : DType} : Dt.promote (.fl a) (.fl b) = .fl (wider a b) := by cases a <;> cases b <;> rfl

theorem pro2_wider {a b : DType} : pro2 (flTag a v) (flTag b v) = flTag (wider a b) v := by
  show Tag.mk (Dt.promote (.fl a) (.fl b)) v = _
  rw [promote_wider]; rfl

theorem withP_eq {f : ℕ → ℕ → ℕ → ℝ} {g : ℕ → ℕ → ℝ} {i : ℕ} {M : M4} {p : V3} (hM : (.of fun r c : Fin 4 => f i r c) = M)
    (hp : ∀ l : Fin 3, g i l = p l) : (.of fun r c : Fin 4 => withP f g i r c) = setP M p := by
  subst hM
  have h0 : g i 0 = p 0 := hp 0
  have h1 : g i 1 = p 1 := hp 1
  have h2 : g i 2 = p 2 := hp 2
  ext r c
  fin_cases r <;> fin_cases c <;> simp [withP, setP, homog, h0, h1, h2]

theorem withR_eq {f g : ℕ → ℕ → ℕ → ℝ} {i : ℕ} {M : M4} {R : M3} (hM : (.of fun r c : Fin 4 => f i r c) = M)
    (hR : ∀ r c : Fin 3, g i r c = R r c) : (.of fun r c : Fin 4 => withR g f i r c) = setR M R := by
  subst hM
  have h : ∀ r c : ℕ, ∀ hr : r < 3, ∀ hc : c < 3, g i r c = R ⟨r, hr⟩ ⟨c, hc⟩ := fun r c hr hc => hR ⟨r, hr⟩ ⟨c, hc⟩
  ext r c
  fin_cases r <;> fin_cases c <;> simp [withR, setR, mkHom, h]

theorem fit_rep {m : ℕ} : (m = n ∨ (n = 1 ∧ 1 < m)) ↔ rep m n = m := by
  unfold rep
  split_ifs <;> omega

theorem pos_core {pos : Tn ℝ} {mo : Option ℕ} {p : ℕ → V3} {f : ℕ → ℕ → ℕ → ℝ} (h : GivesPos pos (flTag dp v) mo p) :
    (∀ k, fit n mo = some k → ∃ g, setPosT d v (box (flTag dm v) n 4 4 f) pos = .ok (box (flTag (wider dm (wider dp d)) v) k 4 4 g) ∧
      ∀ i < k, (.of fun r c : Fin 4 => g i r c) = setP (.of fun r c : Fin 4 => f (bcRow n i) r c) (p i)) ∧
    (fit n mo = none → setPosT d v (box (flTag dm v) n 4 4 f) pos = .error .runtimeError) := by
  cases h with
  | one h =>
    have e := eta1 (a := pos) h.1
    rw [h.2] at e
    constructor
    · intro k hk
      simp only [fit] at hk
      split_ifs at hk with hn
      subst hn; cases hk
      have key := setPosT_line (d := d) (v := v) (tm := flTag dm v) (tp := flTag dp v) (f := f) (g := fun i => pos.get [i]) rfl rfl
      rw [← e, pro2_wider, pro2_wider] at key
      refine ⟨_, key, fun i hi => ?_⟩
      obtain rfl : i = 0 := by omega
      exact withP_eq (p := vecAt 3 pos []) rfl fun l => rfl
    · intro hk
      simp only [fit] at hk
      split_ifs at hk with hn
      have key := setPosT_line_error (d := d) (v := v) (tm := flTag dm v) (tp := flTag dp v) (f := f) (g := fun i => pos.get [i]) rfl hn
      rw [← e] at key
      exact key
  | @many m h =>
    have e := eta2 (a := pos) h.1
    rw [h.2] at e
    have key := setPosT_flat (d := d) (v := v) (tm := flTag dm v) (tp := flTag dp v) (n := n) (m := m) (f := f) (g := fun i j => pos.get [i, j]) rfl rfl
    rw [← e] at key
    rw [key]
    constructor
    · intro k hk
      simp only [fit] at hk
      split_ifs at hk with hn
      cases hk
      rw [if_pos (fit_rep.1 hn), pro2_wider, pro2_wider]
      exact ⟨_, rfl, fun i hi => withP_eq (f := fun i => f (bcRow n i)) (p := vecAt 3 pos [i]) rfl fun l => rfl⟩
    · intro hk
      simp only [fit] at hk
      split_ifs at hk with hn
      rw [if_neg (fun h => hn (fit_rep.2 h))]

/-- The rotation matrices of the argument -/
theorem rotMatrixT_arg {rot : Tn ℝ} {mo : Option ℕ} {R : ℕ → M3} (h : GivesRot rot (flTag dr v) mo R) :
    (mo = none → ∃ g, rotMatrixT rot = .ok (flatB (flTag dr v) 3 3 g) ∧ ∀ r c : Fin 3, g r c = R 0 r c) ∧
    (∀ m, mo = some m → ∃ g, rotMatrixT rot = .ok (box (flTag dr v) m 3 3 g) ∧ ∀ i < m, ∀ r c : Fin 3, g i r c = R i r c) := by
  have flat : ∀ (q : Tn ℝ) (M : M3), HasMat q [] 3 3 (flTag dr v) → matAt 3 3 q [] = M → rotMatrixT rot = .ok q →
      ∃ g, rotMatrixT rot = .ok (flatB (flTag dr v) 3 3 g) ∧ ∀ r c : Fin 3, g r c = M r c := by
    intro q M hq hM he
    have e := eta2 (a := q) hq.1
    rw [hq.2] at e
    exact ⟨_, he.trans (congrArg _ e), fun r c => congrFun (congrFun hM r) c⟩
  have boxy : ∀ (q : Tn ℝ) (m : ℕ) (M : ℕ → M3), HasMat q [m] 3 3 (flTag dr v) → (∀ i < m, matAt 3 3 q [i] = M i) → rotMatrixT rot = .ok q →
      ∃ g, rotMatrixT rot = .ok (box (flTag dr v) m 3 3 g) ∧ ∀ i < m, ∀ r c : Fin 3, g i r c = M i r c := by
    intro q m M hq hM he
    have e := eta3 (a := q) hq.1
    rw [hq.2] at e
    exact ⟨_, he.trans (congrArg _ e), fun i hi r c => congrFun (congrFun (hM i hi) r) c⟩
  have hpc : parseConvention ['X', 'Y', 'Z'] = .ok (.X, .Y, .Z) := by decide
  have hE : ∀ s (e : List ℕ → Fin 3 → ℝ), Tn.eulerAnglesToMatrix (ofV (flTag dr v) s 3 e) ['X', 'Y', 'Z'] =
      .ok (ofM (flTag dr v) s 3 3 fun i r k => (elem .x (e i 0) * elem .y (e i 1) * elem .z (e i 2)) r k) := by
    intro s e
    rw [eulerAnglesToMatrix_V, hpc]
    simp only [← axisAngleRotation_eq]
    rfl
  cases h with
  | quat h =>
    refine ⟨fun _ => ?_, fun m hm => (by cases hm)⟩
    obtain ⟨q, h1, h2, h3⟩ := C121_quaternion_to_matrix h
    refine flat q _ h2 (h3 [] (validIx_nil.2 rfl)) ?_
    rw [rotMatrixT, h.1]; exact h1
  | quats h =>
    refine ⟨fun hm => (by cases hm), fun m hm => ?_⟩
    cases hm
    obtain ⟨q, h1, h2, h3⟩ := C121_quaternion_to_matrix h
    refine boxy q _ _ h2 (fun i hi => h3 [i] (valid1.2 hi)) ?_
    rw [rotMatrixT, h.1]; exact h1
  | euler h =>
    refine ⟨fun _ => ?_, fun m hm => (by cases hm)⟩
    refine flat _ _ (hasMat_ofM (s := []) _ _ _ _) (matAt_ofM (s := []) (validIx_nil.2 rfl)) (Eq.trans ?_ ((congrArg (Tn.eulerAnglesToMatrix · ['X', 'Y', 'Z']) h.eq).trans (hE [] _)))
    rw [rotMatrixT, h.1]; rfl
  | @eulers m h hm3 =>
    refine ⟨fun hm => (by cases hm), fun m' hm => ?_⟩
    cases hm
    refine boxy _ m _ (hasMat_ofM (s := [m]) _ _ _ _) (fun i hi => matAt_ofM (valid1.2 hi))
      (Eq.trans ?_ ((congrArg (Tn.eulerAnglesToMatrix · ['X', 'Y', 'Z']) h.eq).trans (hE [m] _)))
    rw [rotMatrixT, h.1]
    simp only [List.cons_append, List.nil_append, List.reverse_cons, List.reverse_nil]
    rw [if_neg (by omega), if_pos (by simpa using hm3)]
  | matrix h =>
    refine ⟨fun _ => ?_, fun m hm => (by cases hm)⟩
    refine flat rot _ h rfl ?_
    rw [rotMatrixT, h.1]
    simp
  | @matrices m h =>
    refine ⟨fun hm => (by cases hm), fun m' hm => ?_⟩
    cases hm
    refine boxy rot m _ h (fun i _ => rfl) ?_
    rw [rotMatrixT, h.1]
    simp

theorem rot_core {rot : Tn ℝ} {mo : Option ℕ} {R : ℕ → M3} {f : ℕ → ℕ → ℕ → ℝ} (h : GivesRot rot (flTag dr v) mo R) :
    (∀ k, fit n mo = some k → ∃ g, setRotT d v (box (flTag dm v) n 4 4 f) rot = .ok (box (flTag (wider (wider dr d) dm) v) k 4 4 g) ∧
      ∀ i < k, (.of fun r c : Fin 4 => g i r c) = setR (.of fun r c : Fin 4 => f (bcRow n i) r c) (R i)) ∧
    (fit n mo = none → setRotT d v (box (flTag dm v) n 4 4 f) rot = .error .runtimeError) := by
  obtain ⟨h1, h2⟩ := rotMatrixT_arg h
  rcases mo with _ | m
  · obtain ⟨g, hg, hv⟩ := h1 rfl
    rw [setRotT_flat (v := v) (tm := flTag dm v) hg rfl rfl]
    constructor
    · intro k hk
      simp only [fit] at hk
      split_ifs at hk with hn
      subst hn; cases hk
      rw [if_pos rfl, pro2_wider, pro2_wider]
      refine ⟨_, rfl, fun i hi => ?_⟩
      obtain rfl : i = 0 := by omega
      exact withR_eq rfl hv
    · intro hk
      simp only [fit] at hk
      split_ifs at hk with hn
      rw [if_neg hn]
  · obtain ⟨g, hg, hv⟩ := h2 m rfl
    rw [setRotT_box (v := v) (tm := flTag dm v) hg rfl rfl]
    constructor
    · intro k hk
      simp only [fit] at hk
      split_ifs at hk with hn
      cases hk
      rw [if_pos (fit_rep.1 hn), pro2_wider, pro2_wider]
      exact ⟨_, rfl, fun i hi => withR_eq (f := fun i => f (bcRow n i)) rfl (hv i hi)⟩
    · intro hk
      simp only [fit] at hk
      split_ifs at hk with hn
      rw [if_neg (fun h => hn (fit_rep.2 h))]

/-- What the constructor starts from: `n` rows, and the device it goes on with -/
inductive GivesBase (n : ℕ) (d : DType) : Option (Tn ℝ) → ℕ → Device → DType → Device → (ℕ → M4) → Prop
  | identity {v : Device} : GivesBase n d none n v d v fun _ => 1
  | one {M : Tn ℝ} {N : ℕ} {w v : Device} {dm : DType} : n = 1 → HasMat M [] 4 4 (flTag dm v) → GivesBase n d (some M) N w dm v fun _ => matAt 4 4 M []
  | many {M : Tn ℝ} {N : ℕ} {w v : Device} {dm : DType} : HasMat M [n] 4 4 (flTag dm v) → GivesBase n d (some M) N w dm v fun i => matAt 4 4 M [i]

theorem base_core {M : Option (Tn ℝ)} {N : ℕ} {w : Device} {B : ℕ → M4} (h : GivesBase n d M N w dm v B) (pos rot : Option (Tn ℝ)) :
    ∃ f, (∀ i < n, (.of fun r c : Fin 4 => f i r c) = B i) ∧ T3T.init M pos rot N d w = (do
      let m ← match pos with | some p => setPosT d v (box (flTag dm v) n 4 4 f) p | none => pure (box (flTag dm v) n 4 4 f)
      let m ← match rot with | some r => setRotT d v m r | none => pure m
      return ⟨.plain, m, m.tag.dt, v⟩) := by
  cases h with
  | identity =>
    refine ⟨fun _ => idE, fun i hi => ?_, ?_⟩
    · ext r c
      simp only [Matrix.of_apply, idE, Matrix.one_apply, Fin.ext_iff]
    · rw [T3T.init]
      simp only [initMatrixT]
      rw [eyes4T_box, ok_bind]
      cases pos <;> cases rot <;> rfl
  | @one M _ _ _ _ hn h =>
    subst hn
    have e := eta2 (a := M) h.1
    rw [h.2] at e
    refine ⟨fun _ r c => M.get [r, c], fun i hi => rfl, ?_⟩
    have hi : initMatrixT (some M) N d w = .ok (box (flTag dm v) 1 4 4 fun _ r c => M.get [r, c]) := by
      simp only [initMatrixT, h.1]
      rw [if_neg (by simp)]
      show (if (4 : ℕ) ≠ 4 ∨ (4 : ℕ) ≠ 4 then _ else _) = _
      rw [if_neg (by simp)]
      exact (congrArg (reshapeInfer · [4, 4]) e).trans (reshapeInfer_flat (p := 4) (q := 4) (by omega) (by omega))
    rw [T3T.init, hi, ok_bind, h.2]
    rfl
  | @many M _ _ _ _ h =>
    have e := eta3 (a := M) h.1
    rw [h.2] at e
    refine ⟨fun i r c => M.get [i, r, c], fun i hi => rfl, ?_⟩
    have hi : initMatrixT (some M) N d w = .ok (box (flTag dm v) n 4 4 fun i r c => M.get [i, r, c]) := by
      simp only [initMatrixT, h.1]
      rw [if_neg (by simp)]
      simp only [List.cons_append, List.nil_append, List.reverse_cons, List.reverse_nil]
      rw [if_neg (by simp)]
      exact (congrArg (reshapeInfer · [4, 4]) e).trans (reshapeInfer_box (p := 4) (q := 4) (by omega) (by omega))
    rw [T3T.init, hi, ok_bind, h.2]
    rfl

theorem fit_row {mo : Option ℕ} (hf : fit n mo = some k) {i : ℕ} (hi : i < k) : bcRow n i < n := by
  unfold fit at hf
  unfold bcRow
  rcases mo with _ | m <;> simp only at hf <;> split_ifs at hf <;> cases hf <;> split_ifs <;> omega

/-- `pos`: the last column of every row is the position. -/
theorem C124_init_pos {M : Option (Tn ℝ)} {N : ℕ} {w : Device} {B : ℕ → M4} (h : GivesBase n d M N w dm v B) {pos : Tn ℝ}
    {mp : Option ℕ} {p : ℕ → V3} (hp : GivesPos pos (flTag dp v) mp p) :
    (∀ k, fit n mp = some k → ∃ R, T3T.init M (some pos) none N d w = .ok R ∧ IsT R k (wider dm (wider dp d)) v ∧ Honest R ∧
      R.kind = .plain ∧ ∀ i < k, mat R i = setP (B (bcRow n i)) (p i)) ∧
    (fit n mp = none → T3T.init M (some pos) none N d w = .error .runtimeError) := by
  obtain ⟨f, hB, hi⟩ := base_core h (some pos) none
  obtain ⟨h1, h2⟩ := pos_core (n := n) (d := d) (dm := dm) (f := f) hp
  rw [hi]
  constructor
  · intro k hk
    obtain ⟨g, hg, hv⟩ := h1 k hk
    simp only [hg, ok_bind, pure_ok]
    refine ⟨_, rfl, ⟨rfl, rfl⟩, ⟨rfl, rfl⟩, rfl, fun i hi => ?_⟩
    rw [mat_box hi, hv i hi, hB _ (fit_row hk hi)]
  · intro hk
    simp only [h2 hk, error_bind]

/-- `rot`: the first three columns of every row are the rotation. -/
theorem C124_init_rot {M : Option (Tn ℝ)} {N : ℕ} {w : Device} {B : ℕ → M4} (h : GivesBase n d M N w dm v B) {rot : Tn ℝ}
    {mr : Option ℕ} {Q : ℕ → M3} (hr : GivesRot rot (flTag dr v) mr Q) :
    (∀ k, fit n mr = some k → ∃ R, T3T.init M none (some rot) N d w = .ok R ∧ IsT R k (wider (wider dr d) dm) v ∧ Honest R ∧
      R.kind = .plain ∧ ∀ i < k, mat R i = setR (B (bcRow n i)) (Q i)) ∧
    (fit n mr = none → T3T.init M none (some rot) N d w = .error .runtimeError) := by
  obtain ⟨f, hB, hi⟩ := base_core h none (some rot)
  obtain ⟨h1, h2⟩ := rot_core (n := n) (d := d) (dm := dm) (f := f) hr
  rw [hi]
  constructor
  · intro k hk
    obtain ⟨g, hg, hv⟩ := h1 k hk
    simp only [hg, ok_bind, pure_ok]
    refine ⟨_, rfl, ⟨rfl, rfl⟩, ⟨rfl, rfl⟩, rfl, fun i hi => ?_⟩
    rw [mat_box hi, hv i hi, hB _ (fit_row hk hi)]
  · intro hk
    simp only [pure_ok, ok_bind, h2 hk, error_bind]

theorem setR_setP (M : M4) (p : V3) (Q : M3) : setR (setP M p) Q = mkHom Q p := by
  ext r c
  fin_cases r <;> fin_cases c <;> simp [setR, setP, mkHom, homog]

/-- `pos` and `rot`: every row is the rigid motion with that position and rotation, whatever the matrix was. -/
theorem C124_init_pos_rot {M : Option (Tn ℝ)} {N : ℕ} {w : Device} {B : ℕ → M4} (h : GivesBase n d M N w dm v B) {pos rot : Tn ℝ}
    {mp mr : Option ℕ} {p : ℕ → V3} {Q : ℕ → M3} (hp : GivesPos pos (flTag dp v) mp p) (hr : GivesRot rot (flTag dr v) mr Q) :
    (∀ l k, fit n mp = some l → fit l mr = some k → ∃ R, T3T.init M (some pos) (some rot) N d w = .ok R ∧
      IsT R k (wider (wider dr d) (wider dm (wider dp d))) v ∧ Honest R ∧ R.kind = .plain ∧
      ∀ i < k, mat R i = mkHom (Q i) (p (bcRow l i))) ∧
    (fit n mp = none → T3T.init M (some pos) (some rot) N d w = .error .runtimeError) ∧
    (∀ l, fit n mp = some l → fit l mr = none → T3T.init M (some pos) (some rot) N d w = .error .runtimeError) := by
  obtain ⟨f, hB, hi⟩ := base_core h (some pos) (some rot)
  obtain ⟨h1, h2⟩ := pos_core (n := n) (d := d) (dm := dm) (f := f) hp
  rw [hi]
  refine ⟨fun l k hl hk => ?_, fun hl => ?_, fun l hl hk => ?_⟩
  · obtain ⟨g, hg, hv⟩ := h1 l hl
    obtain ⟨g', hg', hv'⟩ := (rot_core (n := l) (d := d) (dm := wider dm (wider dp d)) (f := g) hr).1 k hk
    simp only [hg, hg', ok_bind, pure_ok]
    refine ⟨_, rfl, ⟨rfl, rfl⟩, ⟨rfl, rfl⟩, rfl, fun i hi => ?_⟩
    rw [mat_box hi, hv' i hi, hv _ (fit_row hk hi), setR_setP]
  · simp only [h2 hl, error_bind]
  · obtain ⟨g, hg, hv⟩ := h1 l hl
    have := (rot_core (n := l) (d := d) (dm := wider dm (wider dp d)) (f := g) hr).2 hk
    simp only [hg, this, ok_bind, error_bind]

end

/-! ## Examples -/

/-- Two positions and one matrix: two transforms; one quaternion is refused for two transforms, two Euler triples are accepted. -/
example : let pos : Tn ℝ := ofV (flTag .f64 cpu) [2] 3 fun i c => (i.headD 0 : ℝ) + c.val
    let quat : Tn ℝ := ofV (flTag .f32 cpu) [] 4 fun _ c => if c = 0 then 1 else 0
    let euler : Tn ℝ := ofV (flTag .f32 cpu) [2] 3 fun i c => if c = 2 then (i.headD 0 : ℝ) else 0
    (∃ R, T3T.init none (some pos) none 1 .f32 cpu = .ok R ∧ IsT R 2 .f64 cpu ∧ mat R 1 = setP 1 ![1, 2, 3]) ∧
    T3T.init none (some pos) (some quat) 1 .f32 cpu = .error .runtimeError ∧
    (∃ R, T3T.init none (some pos) (some euler) 1 .f32 cpu = .ok R ∧ IsT R 2 .f64 cpu ∧
      mat R 1 = mkHom (elem .x 0 * elem .y 0 * elem .z 1) ![1, 2, 3]) := by
  intro pos quat euler
  have hb : GivesBase 1 .f32 none 1 cpu .f32 cpu fun _ => 1 := .identity
  have hp : GivesPos pos (flTag .f64 cpu) (some 2) fun i => vecAt 3 pos [i] := .many ⟨rfl, rfl⟩
  have hq : GivesRot quat (flTag .f32 cpu) none _ := .quat ⟨rfl, rfl⟩
  have he : GivesRot euler (flTag .f32 cpu) (some 2) _ := .eulers ⟨rfl, rfl⟩ (by omega)
  have e : vecAt 3 pos [1] = ![1, 2, 3] := by
    rw [vecAt_ofV (valid1.2 (by omega))]
    funext c
    fin_cases c <;> simp <;> norm_num
  have e2 : vecAt 3 euler [1] = ![0, 0, 1] := by
    rw [vecAt_ofV (valid1.2 (by omega))]
    funext c
    fin_cases c <;> simp
  refine ⟨?_, ?_, ?_⟩
  · obtain ⟨R, h1, h2, -, -, h3⟩ := (C124_init_pos hb hp).1 2 rfl
    exact ⟨R, h1, h2, by rw [h3 1 (by omega), e]⟩
  · exact (C124_init_pos_rot hb hp hq).2.2 2 rfl rfl
  · obtain ⟨R, h1, h2, -, -, h3⟩ := (C124_init_pos_rot hb hp he).1 2 2 rfl rfl
    refine ⟨R, h1, h2, ?_⟩
    rw [h3 1 (by omega), show bcRow 2 1 = 1 from rfl, e, e2]
    rfl

/-- Matrices of the wrong shape -/
example : T3T.init (some (ofM (flTag .f32 cpu) [2] 3 4 fun _ _ _ => 0)) none none 1 .f32 cpu = .error .valueError ∧
    T3T.init (some (ofM (flTag .f32 cpu) [2, 5] 4 4 fun _ _ _ => 0)) none none 1 .f32 cpu = .error .valueError := by
  refine ⟨C124_init_matrix_refused _ _ _ _ fun s hs h => ?_, C124_init_matrix_refused _ _ _ _ fun s hs h => ?_⟩
  · rcases s with _ | ⟨a, _ | ⟨b, s⟩⟩ <;> simp at h hs
  · rcases s with _ | ⟨a, _ | ⟨b, s⟩⟩ <;> simp at h hs

end PK
