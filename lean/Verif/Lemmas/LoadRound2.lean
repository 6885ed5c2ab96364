import Verif.Lemmas.LoadRound
import Verif.Lemmas.T3Round
import Verif.Model.FloatLoad2
import Verif.Spec.FloatLoad2
import Verif.Props.FloatLoad
import Verif.Props.FloatT3
import Verif.Props.Mjcf
import Verif.Props.Sdf

/-!
# Rounding errors of loading SDF and MJCF, and of forward kinematics of loaded trees
-/

namespace PK
open Spec Matrix

/-! ## trees -/

/-- a recursion over a tree has a solution -/
theorem tree_recursion {J β : Type} {names : List Name} {par chi : J → Name} {l : List J} {root : Name} (h : IsTree names par chi l root)
    (x0 : β) (step : J → β → β) : ∃ P : Name → β, P root = x0 ∧ ∀ j ∈ l, P (chi j) = step j (P (par j)) := by
  classical
  let at' : ℕ → Name → β := fun k => Nat.rec (fun _ => x0)
    (fun _ f n => match l.find? fun j => decide (chi j = n) with
      | none => x0
      | some j => step j (f (par j))) k
  let k : Name → ℕ := fun n => if hn : ∃ k, Reach par chi l root k n then hn.choose else 0
  have hk : ∀ n i, Reach par chi l root i n → k n = i := by
    intro n i hi
    have hn : ∃ k, Reach par chi l root k n := ⟨i, hi⟩
    simp only [k, dif_pos hn]
    exact Reach.depth_unique h.one_parent h.root_top hn.choose_spec hi
  have hj : ∀ j ∈ l, k (chi j) = k (par j) + 1 := by
    intro j hj
    obtain ⟨i, hi⟩ := h.reachable _ (h.child_mem j hj)
    have : ∃ i', Reach par chi l root i' (par j) := by
      generalize hc : chi j = c at hi
      cases hi with
      | here => exact absurd hc (h.root_top j hj)
      | step i' j' hj' hi' =>
        have := chi_inj h.one_parent hj hj' hc
        subst this
        exact ⟨i', hi'⟩
    obtain ⟨i', hi'⟩ := this
    rw [hk _ _ hi', hk _ _ (.step i' j hj hi')]
  have hfind : ∀ j ∈ l, (l.find? fun j' => decide (chi j' = chi j)) = some j := by
    intro j hj
    cases hx : l.find? fun j' => decide (chi j' = chi j) with
    | none => exact absurd (by simp) (List.find?_eq_none.1 hx j hj)
    | some j' =>
      rw [chi_inj h.one_parent (List.mem_of_find?_eq_some hx) hj (by simpa using List.find?_some hx)]
  refine ⟨fun n => at' (k n) n, ?_, fun j₀ h' => ?_⟩
  · simp only [hk root 0 .here]; rfl
  · simp only [hj j₀ h']
    show (match l.find? fun j' => decide (chi j' = chi j₀) with
      | none => x0
      | some j => step j (at' (k (par j₀)) (par j))) = _
    rw [hfind j₀ h']

/-- The numbers stored in a frame are those of the ideal robot: offsets up to `δ` and the factor `δ` of given lengths, axes of moving
joints up to `τ` per component. -/
structure StoredWithin (δ τ : ℝ) (I : Ideal) (a c : ℝ) (f : Frame) : Prop where
  lo : Within δ a (f.link.offset.getD 1) (I.lo f)
  jo : Within δ c (f.joint.offset.getD 1) (I.jo f)
  unit : Moving f.joint → IsUnitV (I.ax f)
  ax : Moving f.joint → ∀ i, |f.joint.axis i - I.ax f i| ≤ τ

section
variable (m : Machine) {δ τ : ℝ} (hu : m.u ≤ τ) (hκ : m.κ ≤ τ) (h1 : τ ≤ 1 / 100)
include hu hκ h1

theorem motionFl_within' {I : Ideal} {f : Frame} (hU : Moving f.joint → IsUnitV (I.ax f))
    (hA : Moving f.joint → ∀ i, |f.joint.axis i - I.ax f i| ≤ τ) (q : ℝ) :
    Within (54 * τ) (travel f q) (motionFl m f.joint q) (I.motion f q) := by
  have h0 : 0 ≤ τ := m.u_nonneg.trans hu
  exact motionFl_within m hu hκ h1 (I := ⟨fun _ => 1, fun _ => 1, fun _ => I.ax f⟩) (δ := 0)
    (f := .mk [] {} { f.joint with offset := none } [])
    ⟨within_refl isRigid_one, within_refl isRigid_one, hU, hA⟩ q

theorem localFl_within' {I : Ideal} {f : Frame} {a c : ℝ} (h : StoredWithin δ τ I a c f) (q : ℝ) :
    Within ((1 + δ) ^ 2 * (1 + 54 * τ) * (1 + 3 * m.γ) ^ 2 - 1) (a + c + travel f q)
      (localFl m f q) (I.lo f * I.jo f * I.motion f q) := by
  have := (h.lo.mul m h.jo).mul m (motionFl_within' m hu hκ h1 h.unit h.ax q)
  exact this.mono (le_of_eq (by ring)) le_rfl

/-- forward kinematics of a tree whose numbers are those of an ideal robot up to rounding, in terms of poses given by recursion -/
theorem tree_within {root : Frame} (h : WF root) {I : Ideal} {a c : Frame → ℝ}
    (hI : ∀ f ∈ preorder root, StoredWithin δ τ I (a f) (c f) f) {B : ℕ} (F : Option Name → Fin B → ℝ) {x : ℝ}
    (hx : 2 * δ + 54 * τ + 9 * m.γ ≤ x) :
    ∃ d, forwardKinematicsFl m root (((movingJoints root).map Joint.name).map F) = .ok d ∧
      ∀ g ∈ preorder root, ∃ T, d.get? g.name = some T ∧ ∀ (b : Fin B) (P : Name → M4) (len : Name → ℝ) (depth : Name → ℕ),
        (P root.name = I.lo root * I.jo root * I.motion root (F root.joint.name b) ∧
          len root.name = a root + c root + travel root (F root.joint.name b) ∧ depth root.name = 1) →
        (∀ g ∈ preorder root, ∀ k ∈ g.children, P k.name = P g.name * (I.lo k * I.jo k * I.motion k (F k.joint.name b)) ∧
          len k.name = len g.name + (a k + c k + travel k (F k.joint.name b)) ∧ depth k.name = depth g.name + 1) →
        depth g.name * x ≤ 1 → Within (2 * depth g.name * x) (len g.name) (T b) (P g.name) := by
  have h0 : 0 ≤ τ := m.u_nonneg.trans hu
  have hγ := m.γ_nonneg
  have hδ : 0 ≤ δ := (hI root (preorder_root_mem root)).lo.g_nonneg
  obtain ⟨d, hd, -, hp⟩ := forwardKinematicsFl_ok m h (((movingJoints root).map Joint.name).map F) (by simp)
  refine ⟨d, hd, fun g hg => ?_⟩
  obtain ⟨p, p1, p2⟩ := exists_path hg
  obtain ⟨T, t1, t2⟩ := hp p g p1 p2
  refine ⟨T, t1, fun b P len depth hroot hstep hb => ?_⟩
  set v := colVal root (((movingJoints root).map Joint.name).map F) b with hv
  have hmot : ∀ k ∈ preorder root, I.motion k (v k.joint) = I.motion k (F k.joint.name b) ∧
      travel k (v k.joint) = travel k (F k.joint.name b) := by
    intro k hk
    by_cases hm : Moving k.joint
    · rw [hv, colVal_name F hk hm b]; exact ⟨rfl, rfl⟩
    · have : k.joint.jtype = .fixed := not_not.1 hm
      simp [Ideal.motion, travel, this]
  set Q := (1 + δ) ^ 2 * (1 + 54 * τ) * (1 + 3 * m.γ) ^ 3 with hQ
  have hQ1 : 1 ≤ Q := by
    rw [hQ]
    have a1 : (1 : ℝ) ≤ (1 + δ) ^ 2 := one_le_pow₀ (by linarith)
    have a2 : (1 : ℝ) ≤ (1 + 3 * m.γ) ^ 3 := one_le_pow₀ (by linarith)
    exact one_le_mul_of_one_le_of_one_le (one_le_mul_of_one_le_of_one_le a1 (by linarith)) a2
  have key : ∀ p, IsPath root p → ∀ g, p.getLast? = some g →
      Within (Q ^ p.length - 1) (len g.name) (pathFl m v p) (P g.name) ∧ p.length = depth g.name := by
    intro p hp
    induction hp with
    | single =>
      intro g hg
      simp only [List.getLast?_singleton, Option.some.injEq] at hg
      subst hg
      have hm := preorder_root_mem root
      obtain ⟨r1, r2, r3⟩ := hroot
      obtain ⟨e1, e2⟩ := hmot root hm
      rw [r1, r2, ← e1, ← e2]
      refine ⟨?_, by simp [r3]⟩
      refine (localFl_within' m hu hκ h1 (hI root hm) (v root.joint)).mono ?_ le_rfl
      rw [List.length_singleton, pow_one, hQ]
      refine sub_le_sub_right (mul_le_mul_of_nonneg_left ?_ (by positivity)) 1
      exact pow_le_pow_right₀ (by linarith) (by norm_num)
    | snoc p g k hp hk ih =>
      intro k' hk'
      have : k' = k := by simpa using hk'.symm
      subst this
      obtain ⟨i1, i2⟩ := ih g (by simp)
      have hgm : g ∈ preorder root := path_last_mem hp (by simp)
      have hkm := preorder_children hgm hk
      obtain ⟨r1, r2, r3⟩ := hstep g hgm k' hk
      obtain ⟨e1, e2⟩ := hmot k' hkm
      rw [r1, r2, r3, ← e1, ← e2]
      refine ⟨?_, by rw [← i2]; simp⟩
      have e : pathFl m v (p ++ [g] ++ [k']) = m.mul (pathFl m v (p ++ [g])) (localFl m k' (v k'.joint)) := by
        cases p with
        | nil => rfl
        | cons q p => simp [pathFl]
      rw [e]
      refine (i1.mul m (localFl_within' m hu hκ h1 (hI k' hkm) (v k'.joint))).mono (le_of_eq ?_) le_rfl
      rw [List.length_append (as := p ++ [g]), List.length_singleton, pow_succ, hQ]
      ring
  obtain ⟨k1, k2⟩ := key p p1 g p2
  rw [t2 b]
  have x0 : 0 ≤ x := by nlinarith
  have := pow_sub_one_le (x := x) x0 (zero_le_one.trans hQ1)
    ((factor_le_exp hδ h0 hγ).trans (Real.exp_le_exp.2 hx)) (n := p.length) (by rw [k2]; exact hb)
  exact k1.mono (this.trans (le_of_eq (by rw [k2]))) le_rfl

end

/-! ## SDF -/

/-- an entry of a product of matrices with entries up to 1 -/
theorem mul3Fl_near (m : Machine) {A' A B' B : M3} {a b : ℝ} (hA : ∀ i j, |A' i j - A i j| ≤ a) (hB : ∀ i j, |B' i j - B i j| ≤ b)
    (hA1 : ∀ i j, |A i j| ≤ 1) (hB1 : ∀ i j, |B i j| ≤ 1) (i j : Fin 3) :
    |mul3Fl m A' B' i j - (A * B) i j| ≤ 3 * (a + b + a * b + m.γ * ((1 + a) * (1 + b))) := by
  have a0 := (abs_nonneg _).trans (hA 0 0)
  have b0 := (abs_nonneg _).trans (hB 0 0)
  have γ0 := m.γ_nonneg
  obtain ⟨θ, h1, h2⟩ := m.dot_err (A' i) fun k => B' k j
  have e : mul3Fl m A' B' i j = ∑ k, A' i k * B' k j * (1 + θ k) := h2
  rw [e, Matrix.mul_apply, ← Finset.sum_sub_distrib]
  have key : ∀ k, |A' i k * B' k j * (1 + θ k) - A i k * B k j| ≤ a + b + a * b + m.γ * ((1 + a) * (1 + b)) := by
    intro k
    have k1 := mul_near (hA i k) (hA1 i k) (hB k j) (hB1 k j)
    have m1 : |A' i k| ≤ 1 + a := by
      have := abs_add_le (A' i k - A i k) (A i k); rw [sub_add_cancel] at this; linarith [hA i k, hA1 i k]
    have m2 : |B' k j| ≤ 1 + b := by
      have := abs_add_le (B' k j - B k j) (B k j); rw [sub_add_cancel] at this; linarith [hB k j, hB1 k j]
    have m3 : |A' i k * B' k j| ≤ (1 + a) * (1 + b) := by
      rw [abs_mul]; exact mul_le_mul m1 m2 (abs_nonneg _) (by linarith)
    have m4 : |A' i k * B' k j * θ k| ≤ m.γ * ((1 + a) * (1 + b)) := by
      rw [abs_mul, mul_comm]; exact mul_le_mul (h1 k) m3 (abs_nonneg _) γ0
    have := abs_add_le (A' i k * B' k j - A i k * B k j) (A' i k * B' k j * θ k)
    rw [show A' i k * B' k j * (1 + θ k) - A i k * B k j = (A' i k * B' k j - A i k * B k j) + A' i k * B' k j * θ k by ring]
    nlinarith
  refine (Finset.abs_sum_le_sum_abs _ _).trans ?_
  have := Finset.sum_le_sum fun k (_ : k ∈ (Finset.univ : Finset (Fin 3))) => key k
  refine this.trans (le_of_eq ?_)
  rw [Finset.sum_const]; simp; ring

theorem isRot_entry {R : M3} (h : IsRot R) (i j : Fin 3) : |R i j| ≤ 1 := by
  have hf := fro_rot h
  have : R i j ^ 2 ≤ 1 := by
    have h1 : (R * Rᵀ) i i = 1 := by rw [h.mul_transpose]; simp
    have h2 : ∑ k, R i k * R i k = 1 := by simpa [Matrix.mul_apply] using h1
    have h3 : R i j * R i j ≤ ∑ k, R i k * R i k := Finset.single_le_sum (f := fun k => R i k * R i k) (fun k _ => mul_self_nonneg _) (Finset.mem_univ j)
    nlinarith
  exact (sq_le_one_iff_abs_le_one _).1 this

theorem elem_rot (a : XYZ) (t : ℝ) : IsRot (elem a t) := isRot_rotAbout (by cases a <;> simp [IsUnitV, XYZ.vec]) t

/-- `euler_angles_to_matrix` of stored angles, every convention of three axes -/
theorem eulerFl_near (m : Machine) {τ A : ℝ} (hu : m.u ≤ τ) (hκ : m.κ ≤ τ) (hγ : m.γ ≤ 5 * τ) (A0 : 0 ≤ A) (hA : (1 + A) * τ ≤ 1 / 1000)
    (a b c : XYZ) {e e' : V3} (he : ∀ i, |e' i - e i| ≤ τ * A) (i j : Fin 3) :
    |mul3Fl m (mul3Fl m (axisAngleRotationFl m (axOf a) (e' 0)) (axisAngleRotationFl m (axOf b) (e' 1)))
        (axisAngleRotationFl m (axOf c) (e' 2)) i j - (elem a (e 0) * elem b (e 1) * elem c (e 2)) i j| ≤ 100 * ((1 + A) * τ) := by
  have h0 : 0 ≤ τ := m.u_nonneg.trans hu
  have hAτ := mul_nonneg A0 h0
  have key : ∀ (a : XYZ) (k : Fin 3), ∀ i j, |axisAngleRotationFl m (axOf a) (e' k) i j - elem a (e k) i j| ≤ (1 + A) * τ := by
    intro a k i j
    have := axisAngleRotationFl_near { m with u := 0, rnd := id, rnd_err := fun x => by simp } m a (he k) i j
    have : |axisAngleRotationFl m (axOf a) (e' k) i j - elem a (e k) i j| ≤ (m.κ + τ * A) + 0 * (1 + (m.κ + τ * A)) := this
    linarith
  set E := (1 + A) * τ with hE
  have E0 : 0 ≤ E := by nlinarith
  have hτE : τ ≤ E := by nlinarith
  have γ0 := m.γ_nonneg
  have hγE : m.γ ≤ 5 * E := by linarith
  have E2 : E * E ≤ 0.001 * E := by nlinarith
  have bound : ∀ x, 0 ≤ x → x ≤ 25 → 3 * (x * E + E + x * E * E + m.γ * ((1 + x * E) * (1 + E))) ≤ (3 * x + 20) * E := by
    intro x x0 x1
    have e1 : x * (E * E) ≤ 25 * (0.001 * E) := mul_le_mul x1 E2 (by positivity) (by norm_num)
    have e2 : (1 + x * E) * (1 + E) ≤ 1.03 := by
      have : x * E ≤ 25 * 0.001 := mul_le_mul x1 (by linarith) E0 (by norm_num)
      nlinarith [mul_nonneg x0 E0]
    have e3 : m.γ * ((1 + x * E) * (1 + E)) ≤ 5 * E * 1.03 := mul_le_mul hγE e2 (by positivity) (by positivity)
    nlinarith
  have s1 : ∀ i j, |mul3Fl m (axisAngleRotationFl m (axOf a) (e' 0)) (axisAngleRotationFl m (axOf b) (e' 1)) i j -
      (elem a (e 0) * elem b (e 1)) i j| ≤ 23 * E := fun i j => by
    refine (mul3Fl_near m (key a 0) (key b 1) (isRot_entry (elem_rot _ _)) (isRot_entry (elem_rot _ _)) i j).trans ?_
    have := bound 1 (by norm_num) (by norm_num)
    simpa using this.trans (le_of_eq (by ring))
  refine (mul3Fl_near m s1 (key c 2) (isRot_entry ((elem_rot _ _).mul (elem_rot _ _))) (isRot_entry (elem_rot _ _)) i j).trans ?_
  exact (bound 23 (by norm_num) (by norm_num)).trans (by nlinarith)

section
variable (m : TrigMachine) {τ A : ℝ} (hu : m.u ≤ τ) (hκ : m.κ ≤ τ) (hγ : m.γ ≤ 5 * τ) (A0 : 0 ≤ A) (hA : (1 + A) * τ ≤ 1 / 1000)

include hu in
theorem storedPos_near (h0 : 0 ≤ τ) (p : V3) : vlen ((fun i => m.rnd (p i)) - p) ≤ τ * vlen p := by
  have : vlen ((fun i => m.rnd (p i)) - p) ≤ vlen (τ • absV p) := by
    refine vlen_le_of_abs fun i => ?_
    simpa [absV] using (m.rnd_err (p i)).trans (mul_le_mul_of_nonneg_right hu (abs_nonneg _))
  rwa [vlen_smul, vlen_absV, abs_of_nonneg h0] at this

include hu hκ hγ A0 hA

theorem sdfTransformFl_ok {o : Option Sdf.Pose} (ho : SdfAnglesLe A o) :
    ∃ T, Sdf.convertTransformFl m.toMachine o = .ok T ∧
      Within (300 * ((1 + A) * τ)) (vlen (posPart (sdfPoseZYX o))) T (sdfPoseZYX o) := by
  have h0 : 0 ≤ τ := m.u_nonneg.trans hu
  have hAτ := mul_nonneg A0 h0
  cases o with
  | none => exact ⟨1, rfl, (within_refl isRigid_one).mono (by positivity) le_rfl⟩
  | some p =>
    have hp := ho p rfl
    refine ⟨_, rfl, Sdf.sdfPoseZYX_rigid _, ?_, ?_, le_rfl, ?_⟩
    · rw [hom_eq_mkHom]; exact mkHom_affine _ _
    · rw [hom_eq_mkHom, rotPart_mkHom]
      have e : rotPart (sdfPoseZYX (some p)) = elem .z (p.rpy 0) * elem .y (p.rpy 1) * elem .x (p.rpy 2) := rotPart_mkHom _ _
      rw [e]
      refine (fro_le_of_entries (e := 100 * ((1 + A) * τ)) (by positivity) fun i j => ?_).trans (by linarith)
      rw [Matrix.sub_apply]
      exact eulerFl_near m.toMachine hu hκ hγ A0 hA .z .y .x (e' := fun i => m.rnd (p.rpy i))
        (fun i => (m.rnd_err _).trans (mul_le_mul hu (hp i) (abs_nonneg _) h0)) i j
    · have e : posPart (sdfPoseZYX (some p)) = p.xyz := posPart_mkHom _ _
      rw [hom_eq_mkHom, posPart_mkHom, e]
      refine (storedPos_near m hu h0 p.xyz).trans (mul_le_mul_of_nonneg_right ?_ (vlen_nonneg _))
      nlinarith

/-- the offset between two links -/
theorem sdfOffset_ok {X Y X' Y' : M4} {l l' : ℝ} (hX : Within (300 * ((1 + A) * τ)) l X' X) (hY : Within (300 * ((1 + A) * τ)) l' Y' Y) :
    Within (1860 * ((1 + A) * τ)) (l + l') (m.mul (invertMatrixFl m.toMachine X') Y') (X⁻¹ * Y) := by
  have h0 : 0 ≤ τ := m.u_nonneg.trans hu
  have hAτ := mul_nonneg A0 h0
  set E := (1 + A) * τ with hE
  have E0 : 0 ≤ E := by nlinarith
  have γ0 := m.γ_nonneg
  have hγE : m.γ ≤ 5 * E := by nlinarith
  refine ((hX.inv m.toMachine).mul m.toMachine hY).mono ?_ le_rfl
  have e1 := Real.add_one_le_exp (300 * E)
  have e2 := Real.add_one_le_exp (15 * E)
  have b1 : (1 + 300 * E) ^ 3 ≤ Real.exp (300 * E) ^ 3 := pow_le_pow_left₀ (by positivity) (by linarith) 3
  have b2 : (1 + 3 * m.γ) ^ 2 ≤ Real.exp (15 * E) ^ 2 := pow_le_pow_left₀ (by positivity) (by linarith) 2
  have b3 : (1 + 300 * E) ^ 3 * (1 + 3 * m.γ) ^ 2 ≤ Real.exp (930 * E) := by
    refine (mul_le_mul b1 b2 (by positivity) (by positivity)).trans (le_of_eq ?_)
    rw [← Real.exp_nat_mul, ← Real.exp_nat_mul, ← Real.exp_add]
    congr 1; push_cast; ring
  have b4 := Real.abs_exp_sub_one_le (x := 930 * E) (by rw [abs_of_nonneg (by positivity)]; linarith)
  rw [abs_of_nonneg (show 0 ≤ 930 * E by positivity)] at b4
  have b5 := (abs_le.1 b4).2
  have : (1 + ((1 + 300 * E) ^ 2 * (1 + 3 * m.γ) - 1)) * (1 + 300 * E) * (1 + 3 * m.γ) - 1 =
      (1 + 300 * E) ^ 3 * (1 + 3 * m.γ) ^ 2 - 1 := by ring
  rw [this]
  linarith

end

/-! ## MJCF -/

theorem poseMatrixFl_ok (m : Machine) {τ : ℝ} (hu : m.u ≤ τ) (h1 : τ ≤ 1 / 1000) {p : V3} {q : Quat} (hq : toH q ≠ 0) :
    Within (81 * τ) (vlen p) (Mjcf.poseMatrixFl m p q) (quatPose p q) := by
  have h0 : 0 ≤ τ := m.u_nonneg.trans hu
  have hr : ∀ x, |m.rnd x - x| ≤ τ * |x| := fun x => (m.rnd_err x).trans (mul_le_mul_of_nonneg_right hu (abs_nonneg x))
  have hn : 0 < q.normSq := Quat.normSq_pos (Mjcf.quat_ne hq)
  set n := Real.sqrt q.normSq with hnn
  have n0 : 0 < n := Real.sqrt_pos.2 hn
  have n2 : n * n = q.normSq := Real.mul_self_sqrt hn.le
  have hun : IsUnitQ (scaleQ n⁻¹ q) := by
    have : n⁻¹ * n = 1 := inv_mul_cancel₀ n0.ne'
    simp only [IsUnitQ, scaleQ]
    simp only [Quat.normSq] at n2
    have : n⁻¹ * n⁻¹ * (n * n) = 1 := by
      rw [show n⁻¹ * n⁻¹ * (n * n) = (n⁻¹ * n) * (n⁻¹ * n) by ring, this]; ring
    rw [n2] at this
    nlinarith
  set q' : Quat := ⟨m.rnd q.w, m.rnd q.x, m.rnd q.y, m.rnd q.z⟩ with hq'
  have hle : ∀ x, x * x ≤ q.normSq → |n⁻¹ * x| ≤ 1 := by
    intro x hx
    rw [← sq_le_one_iff_abs_le_one, mul_pow, inv_pow, pow_two n, n2, inv_mul_le_iff₀ hn, mul_one, pow_two]
    exact hx
  have near : ∀ x, x * x ≤ q.normSq → |n⁻¹ * m.rnd x - n⁻¹ * x| ≤ τ := by
    intro x hx
    rw [← mul_sub, abs_mul, abs_of_pos (inv_pos.2 n0)]
    have h2 := hle x hx
    rw [abs_mul, abs_of_pos (inv_pos.2 n0)] at h2
    have := mul_le_mul_of_nonneg_left (hr x) (inv_pos.2 n0).le
    nlinarith
  have hN : QNear τ (scaleQ n⁻¹ q') (scaleQ n⁻¹ q) := by
    intro i
    have w := mul_self_nonneg q.w; have x := mul_self_nonneg q.x; have y := mul_self_nonneg q.y; have z := mul_self_nonneg q.z
    have e : q.normSq = q.w * q.w + q.x * q.x + q.y * q.y + q.z * q.z := rfl
    fin_cases i
    · exact near q.w (by linarith)
    · exact near q.x (by linarith)
    · exact near q.y (by linarith)
    · exact near q.z (by linarith)
  obtain ⟨hpos, hl⟩ := quaternionToMatrix_lip (by linarith) hun hN
  have hpos' : 0 < q'.normSq := by
    have e : (scaleQ n⁻¹ q').normSq = n⁻¹ ^ 2 * q'.normSq := by simp only [Quat.normSq, scaleQ]; ring
    rw [e] at hpos
    exact pos_of_mul_pos_right hpos (by positivity)
  rw [quaternionToMatrix_scale (inv_ne_zero n0.ne') hpos'.ne', quaternionToMatrix_scale (inv_ne_zero n0.ne') hn.ne'] at hl
  refine ⟨Mjcf.quatPose_rigid hq, ?_, ?_, ?_, ?_⟩
  · rw [Mjcf.poseMatrixFl, hom_eq_mkHom]; exact mkHom_affine _ _
  · rw [Mjcf.poseMatrixFl, hom_eq_mkHom, rotPart_mkHom, quatPose, rotPart_mkHom, ← Mjcf.quaternionToMatrix_eq_quatRot hq]
    refine (fro_le_of_entries (e := 27 * τ) (by positivity) fun i j => ?_).trans (by linarith)
    have a := quaternionToMatrixFl_near m hu h0 h1 hpos' i j
    have := abs_add_le (quaternionToMatrixFl m q' i j - quaternionToMatrix q' i j) (quaternionToMatrix q' i j - quaternionToMatrix q i j)
    rw [sub_add_sub_cancel] at this
    rw [Matrix.sub_apply]
    linarith [hl i j]
  · rw [quatPose, posPart_mkHom]
  · rw [Mjcf.poseMatrixFl, hom_eq_mkHom, posPart_mkHom, quatPose, posPart_mkHom]
    have : vlen ((fun i => m.rnd (p i)) - p) ≤ vlen (τ • absV p) := by
      refine vlen_le_of_abs fun i => ?_
      simpa [absV] using hr (p i)
    rw [vlen_smul, vlen_absV, abs_of_nonneg h0] at this
    refine this.trans (mul_le_mul_of_nonneg_right ?_ (vlen_nonneg _))
    linarith

end PK
