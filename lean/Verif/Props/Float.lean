import Verif.Lemmas.FkFl
import Verif.Lemmas.Round
import Verif.Props.Fk
import Verif.Props.Pose

/-!
# C102: rounding errors of forward kinematics
-/

namespace PK
open Spec Matrix

section
variable (m : Machine) {δ τ : ℝ} (hu : m.u ≤ τ) (hκ : m.κ ≤ τ) (h1 : τ ≤ 1 / 100)
include hu hκ h1

theorem motionFl_within {I : Ideal} {f : Frame} (h : StoredAs δ τ I f) (q : ℝ) :
    Within (54 * τ) (travel f q) (motionFl m f.joint q) (I.motion f q) := by
  have h0 : 0 ≤ τ := m.u_nonneg.trans hu
  cases ht : f.joint.jtype with
  | fixed =>
    simp only [motionFl, Ideal.motion, travel, ht]
    exact (within_refl isRigid_one).mono (by positivity) (by simp [posPart, vlen])
  | revolute =>
    have hm : Moving f.joint := by simp [Moving, ht]
    have hU := h.unit hm
    simp only [motionFl, Ideal.motion, travel, ht, axisAndAngle44Fl, hom_eq_mkHom]
    refine ⟨isRigid_mkHom (isRot_rotAbout hU _) _, mkHom_affine _ _, ?_, ?_, ?_⟩
    · rw [rotPart_mkHom, rotPart_mkHom]
      refine (fro_le_of_entries (e := 18 * τ) (by positivity) fun i j => ?_).trans (by linarith)
      exact axisAngle_near m hu hκ h0 h1 hU (h.ax hm) q i j
    · simp [vlen]
    · simp [vlen]
  | prismatic =>
    have hm : Moving f.joint := by simp [Moving, ht]
    have hU := h.unit hm
    simp only [motionFl, Ideal.motion, travel, ht, axisAndDToPrisFl, hom_eq_mkHom]
    refine ⟨isRigid_mkHom isRot_one _, mkHom_affine _ _, ?_, ?_, ?_⟩
    · rw [rotPart_mkHom, rotPart_mkHom]
      simpa [fro] using h0
    · rw [posPart_mkHom, vlen_smul, vlen_unit hU, mul_one]
    · rw [posPart_mkHom, posPart_mkHom]
      have hle : ∀ i, |I.ax f i| ≤ 1 := fun i => by
        have hun := hU
        rw [← sq_le_one_iff_abs_le_one]
        unfold IsUnitV at hun
        have := sq_nonneg (I.ax f 0); have := sq_nonneg (I.ax f 1); have := sq_nonneg (I.ax f 2)
        fin_cases i
        · show I.ax f 0 ^ 2 ≤ 1; linarith
        · show I.ax f 1 ^ 2 ≤ 1; linarith
        · show I.ax f 2 ^ 2 ≤ 1; linarith
      refine (vlen_le_of_entries (e := 3 * τ * |q|) (by positivity) fun i => ?_).trans
        (by nlinarith [mul_nonneg h0 (abs_nonneg q)])
      have e1 : |f.joint.axis i * q - I.ax f i * q| ≤ τ * |q| := by
        rw [← sub_mul, abs_mul]
        exact mul_le_mul_of_nonneg_right (h.ax hm i) (abs_nonneg _)
      have e2 : |I.ax f i * q| ≤ |q| := by
        rw [abs_mul]
        nlinarith [hle i, abs_nonneg q]
      have e3 := rnd_near m hu e1 e2
      rw [Pi.sub_apply, Pi.smul_apply, smul_eq_mul, mul_comm q]
      exact e3.trans (by nlinarith [mul_nonneg h0 (abs_nonneg q)])

theorem localFl_within {I : Ideal} {f : Frame} (h : StoredAs δ τ I f) (q : ℝ) :
    Within ((1 + δ) ^ 2 * (1 + 54 * τ) * (1 + 3 * m.γ) ^ 2 - 1)
      (vlen (posPart (I.lo f)) + vlen (posPart (I.jo f)) + travel f q)
      (localFl m f q) (I.lo f * I.jo f * I.motion f q) := by
  have := (h.lo.mul m h.jo).mul m (motionFl_within m hu hκ h1 h q)
  exact this.mono (le_of_eq (by ring)) le_rfl

theorem pathFl_within {I : Ideal} (val : Joint → ℝ) {p : List Frame} (hp : p ≠ []) (h : ∀ f ∈ p, StoredAs δ τ I f) :
    Within (((1 + δ) ^ 2 * (1 + 54 * τ) * (1 + 3 * m.γ) ^ 3) ^ p.length - 1) (I.reach val p)
      (pathFl m val p) (I.pose val p) := by
  have h0 : 0 ≤ τ := m.u_nonneg.trans hu
  have hγ := m.γ_nonneg
  have step : ∀ (p : List Frame) (x l : ℝ) (T' T : M4), (∀ f ∈ p, StoredAs δ τ I f) → Within (x - 1) l T' T →
      Within (x * ((1 + δ) ^ 2 * (1 + 54 * τ) * (1 + 3 * m.γ) ^ 3) ^ p.length - 1) (l + I.reach val p)
        (p.foldl (fun T g => m.mul T (localFl m g (val g.joint))) T') (T * I.pose val p) := by
    intro p
    induction p with
    | nil => intro x l T' T _ hT; simpa [Ideal.reach, Ideal.pose] using hT
    | cons f p ih =>
      intro x l T' T hp hT
      have hf := hp f (by simp)
      have h2 := hT.mul m (localFl_within m hu hκ h1 hf (val f.joint))
      have h3 := ih (x * ((1 + δ) ^ 2 * (1 + 54 * τ) * (1 + 3 * m.γ) ^ 3)) _ _ _
        (fun g hg => hp g (by simp [hg])) (h2.mono (le_of_eq (by ring)) le_rfl)
      rw [List.foldl_cons]
      have e1 : I.pose val (f :: p) = I.lo f * I.jo f * I.motion f (val f.joint) * I.pose val p := by
        simp [Ideal.pose]
      have e2 : I.reach val (f :: p) =
          vlen (posPart (I.lo f)) + vlen (posPart (I.jo f)) + travel f (val f.joint) + I.reach val p := by
        simp [Ideal.reach]
      rw [e1, e2, ← mul_assoc, ← add_assoc]
      refine h3.mono (le_of_eq ?_) le_rfl
      rw [List.length_cons, pow_succ]
      ring
  cases p with
  | nil => exact absurd rfl hp
  | cons f p =>
    have hf := h f (by simp)
    have hδ : 0 ≤ δ := hf.lo.g_nonneg
    have h2 := step p _ _ _ _ (fun g hg => h g (by simp [hg])) (localFl_within m hu hκ h1 hf (val f.joint))
    have e1 : I.pose val (f :: p) = I.lo f * I.jo f * I.motion f (val f.joint) * I.pose val p := by
      simp [Ideal.pose]
    have e2 : I.reach val (f :: p) =
        vlen (posPart (I.lo f)) + vlen (posPart (I.jo f)) + travel f (val f.joint) + I.reach val p := by
      simp [Ideal.reach]
    rw [e1, e2]
    refine h2.mono (sub_le_sub_right ?_ 1) le_rfl
    rw [List.length_cons, pow_succ, mul_comm]
    refine mul_le_mul_of_nonneg_left ?_ (by positivity)
    refine mul_le_mul_of_nonneg_left ?_ (by positivity)
    exact pow_le_pow_right₀ (by linarith) (by norm_num)

end

/-- **C102**: whatever the arithmetic, the pose of the frame at the end of a path of `n` frames is the exact pose of the ideal
robot up to a relative error of `Q ^ n - 1`, where `Q` depends only on the arithmetic and on how precisely the robot is
stored: the rotation block in Frobenius norm, the position relative to the length of the path. -/
theorem C102_rounding (m : Machine) {δ τ : ℝ} (hu : m.u ≤ τ) (hκ : m.κ ≤ τ) (h1 : τ ≤ 1 / 100) (root : Frame) (h : WF root)
    {B : ℕ} (th : List (Fin B → ℝ)) (hth : th.length = (movingJoints root).length) (I : Ideal)
    (hI : ∀ f ∈ preorder root, StoredAs δ τ I f) :
    ∃ d, forwardKinematicsFl m root th = .ok d ∧ d.keys = (preorder root).map Frame.name ∧
      ∀ p f, IsPath root p → p.getLast? = some f →
        ∃ T, d.get? f.name = some T ∧ ∀ b,
          Within (((1 + δ) ^ 2 * (1 + 54 * τ) * (1 + 3 * m.γ) ^ 3) ^ p.length - 1) (I.reach (colVal root th b) p)
            (T b) (I.pose (colVal root th b) p) := by
  obtain ⟨d, hd, hk, hp⟩ := forwardKinematicsFl_ok m h th hth
  refine ⟨d, hd, hk, fun p f hpath hl => ?_⟩
  obtain ⟨T, hT, hb⟩ := hp p f hpath hl
  refine ⟨T, hT, fun b => ?_⟩
  rw [hb b]
  refine pathFl_within m hu hκ h1 _ (fun hn => by rw [hn] at hl; simp at hl) fun g hg => hI g ?_
  exact isPath_mem hpath g hg

theorem pow_sub_one_le {x : ℝ} (hx : 0 ≤ x) {Q : ℝ} (h0 : 0 ≤ Q) (hQ : Q ≤ Real.exp x) {n : ℕ} (hn : n * x ≤ 1) :
    Q ^ n - 1 ≤ 2 * n * x := by
  have h1 : Q ^ n ≤ Real.exp (n * x) := by
    rw [Real.exp_nat_mul]; exact pow_le_pow_left₀ h0 hQ n
  have h2 : (0 : ℝ) ≤ n * x := by positivity
  have h3 := Real.abs_exp_sub_one_le (x := n * x) (by rw [abs_of_nonneg h2]; exact hn)
  rw [abs_of_nonneg h2] at h3
  have := (abs_le.1 h3).2
  linarith

theorem factor_le_exp {δ τ γ : ℝ} (hδ : 0 ≤ δ) (hτ : 0 ≤ τ) (hγ : 0 ≤ γ) :
    (1 + δ) ^ 2 * (1 + 54 * τ) * (1 + 3 * γ) ^ 3 ≤ Real.exp (2 * δ + 54 * τ + 9 * γ) := by
  have e : Real.exp (2 * δ + 54 * τ + 9 * γ) = Real.exp δ ^ 2 * Real.exp (54 * τ) * Real.exp (3 * γ) ^ 3 := by
    rw [← Real.exp_nat_mul, ← Real.exp_nat_mul, ← Real.exp_add, ← Real.exp_add]
    congr 1; push_cast; ring
  have a1 := Real.add_one_le_exp δ
  have a2 := Real.add_one_le_exp (54 * τ)
  have a3 := Real.add_one_le_exp (3 * γ)
  rw [e]
  have b1 : (1 + δ) ^ 2 ≤ Real.exp δ ^ 2 := pow_le_pow_left₀ (by positivity) (by linarith) 2
  have b3 : (1 + 3 * γ) ^ 3 ≤ Real.exp (3 * γ) ^ 3 := pow_le_pow_left₀ (by positivity) (by linarith) 3
  exact mul_le_mul (mul_le_mul b1 (by linarith) (by positivity) (by positivity)) b3 (by positivity) (by positivity)

/-- **C102**: the error grows at most linearly with the number of frames along the path. -/
theorem C102_linear (m : Machine) {δ τ : ℝ} (hu : m.u ≤ τ) (hκ : m.κ ≤ τ) (h1 : τ ≤ 1 / 100) (root : Frame) (h : WF root)
    {B : ℕ} (th : List (Fin B → ℝ)) (hth : th.length = (movingJoints root).length) (I : Ideal)
    (hI : ∀ f ∈ preorder root, StoredAs δ τ I f) :
    ∃ d, forwardKinematicsFl m root th = .ok d ∧
      ∀ p f, IsPath root p → p.getLast? = some f → p.length * (2 * δ + 54 * τ + 9 * m.γ) ≤ 1 →
        ∃ T, d.get? f.name = some T ∧ ∀ b,
          Within (2 * p.length * (2 * δ + 54 * τ + 9 * m.γ)) (I.reach (colVal root th b) p)
            (T b) (I.pose (colVal root th b) p) := by
  obtain ⟨d, hd, -, hp⟩ := C102_rounding m hu hκ h1 root h th hth I hI
  refine ⟨d, hd, fun p f hpath hl hn => ?_⟩
  obtain ⟨T, hT, hb⟩ := hp p f hpath hl
  have h0 : 0 ≤ τ := m.u_nonneg.trans hu
  have hγ := m.γ_nonneg
  have hδ : 0 ≤ δ := (hI f (path_last_mem hpath hl)).lo.g_nonneg
  exact ⟨T, hT, fun b => (hb b).mono
    (pow_sub_one_le (by positivity) (by positivity) (factor_le_exp hδ h0 hγ) hn) le_rfl⟩

theorem asStored_pose (val : Joint → ℝ) (p : List Frame) : asStored.pose val p = pathT val p := rfl

theorem asStored_storedAs {root : Frame} (h : RigidTree root) {τ : ℝ} (hτ : 0 ≤ τ) :
    ∀ f ∈ preorder root, StoredAs 0 τ asStored f := by
  intro f hf
  refine ⟨within_refl ?_, within_refl ?_, h.axis f hf, fun _ i => by simpa [asStored] using hτ⟩
  · show IsRigid (f.link.offset.getD 1)
    cases ho : f.link.offset with
    | none => exact isRigid_one
    | some o => exact h.link f hf o ho
  · show IsRigid (f.joint.offset.getD 1)
    cases ho : f.joint.offset with
    | none => exact isRigid_one
    | some o => exact h.joint f hf o ho

/-- **C102**: with `q` binary digits (24 for `float32`, 53 for `float64`) and exactly representable data, the computed pose of
a frame differs from the exact one (`C01`) by at most `182 n / 2 ^ q`. -/
theorem C102_precision (q : ℕ) (hq : 10 ≤ q) (root : Frame) (h : WF root) (hr : RigidTree root)
    {B : ℕ} (th : List (Fin B → ℝ)) (hth : th.length = (movingJoints root).length) :
    ∃ d d', (Chain.init root).forwardKinematics th = .ok d ∧
      forwardKinematicsFl (binary q (by omega)) root th = .ok d' ∧ d'.keys = d.keys ∧
      ∀ p f, IsPath root p → p.getLast? = some f → (p.length : ℝ) * 91 ≤ 2 ^ q →
        ∃ T T', d.get? f.name = some T ∧ d'.get? f.name = some T' ∧ ∀ b,
          fro (rotPart (T' b) - rotPart (T b)) ≤ 182 * p.length / 2 ^ q ∧
          vlen (posPart (T' b) - posPart (T b)) ≤ 182 * p.length / 2 ^ q * asStored.reach (colVal root th b) p := by
  set m := binary q (by omega) with hm
  obtain ⟨d, hd, hk, hp⟩ := C01_fk_is_path_product root h th hth
  have hU : m.u = 1 / 2 ^ q := by
    show (2 : ℝ) ^ (-(q : ℤ)) = _
    rw [zpow_neg, zpow_natCast, one_div]
  have hK : m.κ = 1 / 2 ^ q := hU
  have h0 : (0 : ℝ) ≤ 1 / 2 ^ q := by positivity
  have h1 : (1 : ℝ) / 2 ^ q ≤ 1 / 1024 := by
    rw [show (1024 : ℝ) = 2 ^ 10 by norm_num]
    exact one_div_le_one_div_of_le (by positivity) (pow_le_pow_right₀ (by norm_num) hq)
  have hγ : m.γ = (1 + 1 / 2 ^ q) ^ 4 - 1 := by
    rw [← hU]; rfl
  have hγ' : m.γ ≤ 4.1 * (1 / 2 ^ q) := by
    rw [hγ]
    generalize (1 : ℝ) / 2 ^ q = u at h0 h1
    have : u * u ≤ u * (1 / 1024) := mul_le_mul_of_nonneg_left h1 h0
    have h3 : u ^ 3 ≤ u * u := by nlinarith [mul_nonneg h0 h0]
    have h4 : u ^ 4 ≤ u * u := by nlinarith [mul_nonneg h0 h0, pow_nonneg h0 3]
    nlinarith
  obtain ⟨d', hd', hk', hp'⟩ := C102_rounding m hU.le hK.le (h1.trans (by norm_num)) root h th hth asStored
    (asStored_storedAs hr h0)
  refine ⟨d, d', hd, hd', by rw [hk, hk'], fun p f hpath hl hn => ?_⟩
  obtain ⟨T, hT, hb⟩ := hp p f hpath hl
  obtain ⟨T', hT', hb'⟩ := hp' p f hpath hl
  refine ⟨T, T', hT, hT', fun b => ?_⟩
  have key : ((1 + 0) ^ 2 * (1 + 54 * (1 / 2 ^ q)) * (1 + 3 * m.γ) ^ 3) ^ p.length - 1 ≤
      182 * p.length / (2 : ℝ) ^ q := by
    have hx : 2 * 0 + 54 * (1 / 2 ^ q) + 9 * m.γ ≤ 91 * (1 / (2 : ℝ) ^ q) := by linarith
    refine (pow_sub_one_le (x := 91 * (1 / 2 ^ q)) (by positivity) (by have := m.γ_nonneg; positivity)
      ((factor_le_exp le_rfl h0 m.γ_nonneg).trans (Real.exp_le_exp.2 hx)) ?_).trans (le_of_eq (by ring))
    rw [← mul_assoc, mul_one_div, div_le_one (by positivity)]
    exact hn
  have hw := (hb' b).mono key le_rfl
  rw [asStored_pose, ← hb b] at hw
  exact ⟨hw.rot, hw.pos⟩

/-- the arm of `exTree` in single precision: two frames below the root -/
example : ∃ d d' T T', (Chain.init exTree).forwardKinematics (B := 1) [fun _ => 1, fun _ => 3, fun _ => 2] = .ok d ∧
    forwardKinematicsFl (binary 24 (by norm_num)) exTree (B := 1) [fun _ => 1, fun _ => 3, fun _ => 2] = .ok d' ∧
    d.get? ['a'] = some T ∧ d'.get? ['a'] = some T' ∧
    fro (rotPart (T' 0) - rotPart (T 0)) ≤ 182 * 3 / 2 ^ 24 := by
  obtain ⟨d, d', h1, h2, -, h3⟩ := C102_precision 24 (by norm_num) exTree exTree_wf exTree_rigid (B := 1)
    [fun _ => 1, fun _ => 3, fun _ => 2] (by simp [exTree, movingJoints, preorder, preorderL, Frame.joint, Moving])
  have hp : ∃ p, IsPath exTree p ∧ p.length = 3 ∧ ∃ f, p.getLast? = some f ∧ f.name = ['a'] := by
    refine ⟨_, .snoc [exTree] _ _ (.snoc [] _ _ .single (List.mem_cons_self ..)) (List.mem_cons_self ..), rfl, _, rfl, rfl⟩
  obtain ⟨p, hp, hl, f, hf, hn⟩ := hp
  obtain ⟨T, T', h4, h5, h6⟩ := h3 p f hp hf (by rw [hl]; norm_num)
  rw [hn] at h4 h5
  have h7 := (h6 0).1
  rw [hl] at h7
  exact ⟨d, d', T, T', h1, h2, h4, h5, by simpa using h7⟩

/-- a frame whose axis and offset are stored imprecisely -/
example : StoredAs (1 / 1000) (1 / 1000) ⟨fun _ => mkHom 1 ![0, 0, 1], fun _ => 1, fun _ => ![0, 0, 1]⟩
    (.mk ['a'] { offset := some (mkHom 1 ![1 / 2000, 0, 1]) }
      { name := some ['j'], jtype := .revolute, axis := ![1 / 2000, 0, 1] } []) := by
  refine ⟨⟨isRigid_mkHom isRot_one _, mkHom_affine _ _, ?_, le_rfl, ?_⟩, ?_, fun _ => by simp [IsUnitV], fun _ i => ?_⟩
  · simp [Frame.link, fro]
  · simp [Frame.link, vlen]
    norm_num
  · exact (within_refl isRigid_one).mono (by norm_num) le_rfl
  · fin_cases i <;> simp [Frame.joint] <;> norm_num

end PK
