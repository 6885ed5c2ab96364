import Verif.Lemmas.IeeeRound
import Verif.Props.Float

/-!
# C133: overflow, underflow, infinities and NaN in forward kinematics
-/

namespace PK
open Spec Matrix

section
variable (m : Ieee) {δ τ ε ℓ : ℝ} (hu : m.u + m.η ≤ τ) (hκ : m.κ ≤ τ) (h1 : τ ≤ 1 / 100) (hℓ : 0 < ℓ) (hℓ1 : ℓ ≤ 1)
  (hη : m.η ≤ τ * ℓ) (hε : m.γ + m.ζ / ℓ ≤ ε)

include hu hκ h1 hℓ hη in
theorem motionI_within {I : Ideal} {f : Frame} (h : StoredAs δ τ I f) (q : ℝ) (hb : 6 * (1 + travel f q) ≤ m.big) :
    WithinI (54 * τ) (travel f q + ℓ) (motionI m f.joint (.fin q)) (I.motion f q) := by
  have h0 : 0 ≤ τ := (add_nonneg m.u_nonneg m.η_nonneg).trans hu
  have ht0 : 0 ≤ travel f q := by unfold travel; split <;> simp
  cases ht : f.joint.jtype with
  | fixed =>
    simp only [motionI, Ideal.motion, ht]
    exact ⟨1, fun _ _ => rfl, (within_refl isRigid_one).mono (by positivity) (by simp [posPart, vlen]; linarith)⟩
  | revolute =>
    have hm : Moving f.joint := by simp [Moving, ht]
    have hU := h.unit hm
    obtain ⟨R, e, hR⟩ := axisAngle_nearI m hu hκ h1 (by linarith) hU (h.ax hm) q
    simp only [motionI, Ideal.motion, ht, e]
    refine ⟨_, fun _ _ => rfl, isRigid_mkHom (isRot_rotAbout hU _) _, mkHom_affine _ _, ?_, ?_, ?_⟩
    · rw [rotPart_mkHom, rotPart_mkHom]
      exact (fro_le_of_entries (e := 18 * τ) (by positivity) fun i j => hR i j).trans (by linarith)
    · rw [posPart_mkHom]; simp [vlen]; linarith
    · rw [posPart_mkHom, posPart_mkHom]
      simp [vlen]; positivity
  | prismatic =>
    have hm : Moving f.joint := by simp [Moving, ht]
    have hU := h.unit hm
    have htr : travel f q = |q| := by simp [travel, ht]
    rw [htr] at hb ⊢
    have hq := abs_nonneg q
    have hle : ∀ i, |I.ax f i| ≤ 1 := fun i => by
      have hun := hU
      rw [← sq_le_one_iff_abs_le_one]
      unfold IsUnitV at hun
      have := sq_nonneg (I.ax f 0); have := sq_nonneg (I.ax f 1); have := sq_nonneg (I.ax f 2)
      fin_cases i
      · show I.ax f 0 ^ 2 ≤ 1; linarith
      · show I.ax f 1 ^ 2 ≤ 1; linarith
      · show I.ax f 2 ^ 2 ≤ 1; linarith
    have hx : ∀ i, ∃ z, m.times (.fin (f.joint.axis i)) (.fin q) = .fin z ∧ |z - I.ax f i * q| ≤ 3 * τ * (|q| + ℓ) := fun i => by
      have e1 : |f.joint.axis i * q - I.ax f i * q| ≤ τ * |q| := by
        rw [← sub_mul, abs_mul]
        exact mul_le_mul_of_nonneg_right (h.ax hm i) (abs_nonneg _)
      have e2 : |I.ax f i * q| ≤ |q| := by
        rw [abs_mul]
        nlinarith [hle i]
      have e3 : |f.joint.axis i * q| ≤ 2 * |q| := by
        have := abs_add_le (f.joint.axis i * q - I.ax f i * q) (I.ax f i * q)
        rw [sub_add_cancel] at this
        nlinarith
      obtain ⟨z, hz, hz'⟩ := m.rnd_ok (f.joint.axis i * q) (by linarith)
      refine ⟨z, hz, ?_⟩
      have e4 : |z - I.ax f i * q| ≤ |z - f.joint.axis i * q| + |f.joint.axis i * q - I.ax f i * q| := abs_sub_le _ _ _
      have e5 : m.u * |f.joint.axis i * q| ≤ τ * (2 * |q|) :=
        mul_le_mul (by linarith [m.η_nonneg]) e3 (abs_nonneg _) h0
      have e6 : 0 ≤ τ * ℓ := by positivity
      nlinarith
    obtain ⟨v, hv⟩ : ∃ v : V3, ∀ i, m.times (.fin (f.joint.axis i)) (.fin q) = .fin (v i) ∧
        |v i - I.ax f i * q| ≤ 3 * τ * (|q| + ℓ) := ⟨fun i => (hx i).choose, fun i => (hx i).choose_spec⟩
    have e : axisAndDToPrisI m f.joint.axis (.fin q) = finM (mkHom 1 v) := by
      funext i j
      rw [finM, ← hom_eq_mkHom]
      simp only [axisAndDToPrisI, (hv _).1]
      fin_cases i <;> fin_cases j <;> simp [hom]
    simp only [motionI, Ideal.motion, ht, e]
    refine ⟨_, fun _ _ => rfl, isRigid_mkHom isRot_one _, mkHom_affine _ _, ?_, ?_, ?_⟩
    · rw [rotPart_mkHom, rotPart_mkHom]
      simpa [fro] using h0
    · rw [posPart_mkHom, vlen_smul, vlen_unit hU, mul_one]; linarith
    · rw [posPart_mkHom, posPart_mkHom]
      have hpos : 0 ≤ τ * (|q| + ℓ) := by positivity
      refine (vlen_le_of_entries (e := 3 * τ * (|q| + ℓ)) (by nlinarith) fun i => ?_).trans (by nlinarith)
      rw [Pi.sub_apply, Pi.smul_apply, smul_eq_mul, mul_comm q]
      exact (hv i).2

/-- the factor by which the relative error may grow per frame -/
noncomputable def perFrameFactor (δ τ ε : ℝ) : ℝ := (1 + δ) ^ 2 * (1 + 54 * τ) * (1 + 3 * ε) ^ 3

include hu hκ h1 hℓ hℓ1 hη hε

theorem localI_within {I : Ideal} {f : Frame} (h : StoredAs δ τ I f) (q : ℝ)
    (hQ : perFrameFactor δ τ ε ≤ 2)
    (hb : 6 * (1 + (vlen (posPart (I.lo f)) + vlen (posPart (I.jo f)) + travel f q + 3 * ℓ)) ≤ m.big) :
    WithinI ((1 + δ) ^ 2 * (1 + 54 * τ) * (1 + 3 * ε) ^ 2 - 1)
      (vlen (posPart (I.lo f)) + vlen (posPart (I.jo f)) + travel f q + 3 * ℓ)
      (localI m f (.fin q)) (I.lo f * I.jo f * I.motion f q) := by
  have h0 : 0 ≤ τ := (add_nonneg m.u_nonneg m.η_nonneg).trans hu
  have hδ : 0 ≤ δ := h.lo.g_nonneg
  have hε0 : 0 ≤ ε := le_trans (add_nonneg m.γ_nonneg (div_nonneg m.ζ_nonneg hℓ.le)) hε
  have ht0 : 0 ≤ travel f q := by unfold travel; split <;> simp
  have v1 := vlen_nonneg (posPart (I.lo f))
  have v2 := vlen_nonneg (posPart (I.jo f))
  have wl : WithinI δ (vlen (posPart (I.lo f)) + ℓ) (finM (f.link.offset.getD 1)) (I.lo f) :=
    ⟨_, fun _ _ => rfl, h.lo.mono le_rfl (by linarith)⟩
  have wj : WithinI δ (vlen (posPart (I.jo f)) + ℓ) (finM (f.joint.offset.getD 1)) (I.jo f) :=
    ⟨_, fun _ _ => rfl, h.jo.mono le_rfl (by linarith)⟩
  have a1 : 1 ≤ (1 + 3 * ε) := by linarith
  have hG2 : (1 + δ) * (1 + δ) * (1 + 3 * ε) * (1 + 54 * τ) ≤ 2 := by
    refine le_trans ?_ hQ
    have : (1 + δ) * (1 + δ) * (1 + 3 * ε) * (1 + 54 * τ) = (1 + δ) ^ 2 * (1 + 54 * τ) * (1 + 3 * ε) ^ 1 := by ring
    rw [this, perFrameFactor]
    exact mul_le_mul_of_nonneg_left (pow_le_pow_right₀ a1 (by norm_num)) (by positivity)
  have hG1 : (1 + δ) * (1 + δ) ≤ 2 := by
    refine le_trans ?_ hG2
    have e1 : (1 + δ) * (1 + δ) ≤ (1 + δ) * (1 + δ) * (1 + 3 * ε) := le_mul_of_one_le_right (by positivity) a1
    exact e1.trans (le_mul_of_one_le_right (by positivity) (by linarith))
  have m1 := wl.mul m wj hℓ hℓ1 hε (by linarith) (by
    have : 3 * ((1 + δ) * (1 + δ)) * (1 + (vlen (posPart (I.lo f)) + ℓ) + (vlen (posPart (I.jo f)) + ℓ)) ≤
        6 * (1 + (vlen (posPart (I.lo f)) + ℓ) + (vlen (posPart (I.jo f)) + ℓ)) :=
      mul_le_mul_of_nonneg_right (by linarith) (by positivity)
    linarith)
  have m2 := m1.mul m (motionI_within m hu hκ h1 hℓ hη h q (by linarith)) hℓ hℓ1 hε (by linarith) (by
    have e : (1 + ((1 + δ) * (1 + δ) * (1 + 3 * ε) - 1)) * (1 + 54 * τ) = (1 + δ) * (1 + δ) * (1 + 3 * ε) * (1 + 54 * τ) := by
      ring
    rw [e]
    refine le_trans (mul_le_mul_of_nonneg_right (b := 3 * ((1 + δ) * (1 + δ) * (1 + 3 * ε) * (1 + 54 * τ))) (c := 6)
      (by linarith) (by linarith)) ?_
    linarith)
  exact m2.mono (le_of_eq (by ring)) (le_of_eq (by ring))

theorem pathI_within {I : Ideal} (val : Joint → ℝ) {p : List Frame} (hp : p ≠ []) (h : ∀ f ∈ p, StoredAs δ τ I f)
    (hQ : perFrameFactor δ τ ε ^ p.length ≤ 2) (hb : 6 * (1 + (I.reach val p + 3 * p.length * ℓ)) ≤ m.big) :
    WithinI (perFrameFactor δ τ ε ^ p.length - 1) (I.reach val p + 3 * p.length * ℓ)
      (pathI m (fun j => .fin (val j)) p) (I.pose val p) := by
  have h0 : 0 ≤ τ := (add_nonneg m.u_nonneg m.η_nonneg).trans hu
  have hε0 : 0 ≤ ε := le_trans (add_nonneg m.γ_nonneg (div_nonneg m.ζ_nonneg hℓ.le)) hε
  have hδ : 0 ≤ δ := by
    cases p with
    | nil => exact absurd rfl hp
    | cons f p => exact (h f (by simp)).lo.g_nonneg
  obtain ⟨Q, hQd⟩ : ∃ Q, Q = perFrameFactor δ τ ε := ⟨_, rfl⟩
  have hQe : Q = (1 + δ) ^ 2 * (1 + 54 * τ) * (1 + 3 * ε) ^ 2 * (1 + 3 * ε) := by rw [hQd, perFrameFactor]; ring
  have hQ1 : 1 ≤ Q := by
    rw [hQd, perFrameFactor]
    exact one_le_mul_of_one_le_of_one_le (one_le_mul_of_one_le_of_one_le (one_le_pow₀ (by linarith)) (by linarith))
      (one_le_pow₀ (by linarith))
  have hlocal : ∀ f, 0 ≤ vlen (posPart (I.lo f)) + vlen (posPart (I.jo f)) + travel f (val f.joint) := fun f => by
    have ht0 : 0 ≤ travel f (val f.joint) := by unfold travel; split <;> simp
    have v1 := vlen_nonneg (posPart (I.lo f))
    have v2 := vlen_nonneg (posPart (I.jo f))
    linarith
  have hreach : ∀ p : List Frame, 0 ≤ I.reach val p := fun p =>
    List.sum_nonneg fun x hx => by
      obtain ⟨f, -, rfl⟩ := List.mem_map.1 hx
      exact hlocal f
  have e1 : ∀ f p, I.pose val (f :: p) = I.lo f * I.jo f * I.motion f (val f.joint) * I.pose val p := fun f p => by
    simp [Ideal.pose]
  have e2 : ∀ f p, I.reach val (f :: p) =
      vlen (posPart (I.lo f)) + vlen (posPart (I.jo f)) + travel f (val f.joint) + I.reach val p := fun f p => by
    simp [Ideal.reach]
  have step : ∀ (p : List Frame) (x l : ℝ) (T' : FM4) (T : M4), (∀ f ∈ p, StoredAs δ τ I f) → 1 ≤ x → 0 ≤ l →
      x * Q ^ p.length ≤ 2 → 6 * (1 + (l + (I.reach val p + 3 * p.length * ℓ))) ≤ m.big → WithinI (x - 1) l T' T →
      WithinI (x * Q ^ p.length - 1) (l + (I.reach val p + 3 * p.length * ℓ))
        (p.foldl (fun T g => m.mul T (localI m g (.fin (val g.joint)))) T') (T * I.pose val p) := by
    intro p
    induction p with
    | nil => intro x l T' T _ _ _ _ _ hT; simpa [Ideal.reach, Ideal.pose] using hT
    | cons f p ih =>
      intro x l T' T hp hx hl hxQ hbig hT
      have hf := hp f (by simp)
      have hr := hreach p
      have hlf := hlocal f
      have hn : (0 : ℝ) ≤ p.length := by positivity
      have hnℓ : 0 ≤ 3 * (p.length : ℝ) * ℓ := by positivity
      rw [e2, List.length_cons] at hbig
      push_cast at hbig
      have hP : 1 ≤ Q ^ p.length := one_le_pow₀ hQ1
      have hxQ' : x * Q * Q ^ p.length ≤ 2 := by
        rw [List.length_cons, pow_succ] at hxQ; linarith
      have hxQ1 : x * Q ≤ 2 := le_trans (le_mul_of_one_le_right (by positivity) hP) hxQ'
      have hQ2 : Q ≤ 2 := le_trans (le_mul_of_one_le_left (by linarith) hx) hxQ1
      have hloc := localI_within m hu hκ h1 hℓ hℓ1 hη hε hf (val f.joint) (by rw [← hQd]; exact hQ2) (by linarith)
      have h2 := hT.mul m hloc hℓ hℓ1 hε (by linarith) (by
        have e : (1 + (x - 1)) * (1 + ((1 + δ) ^ 2 * (1 + 54 * τ) * (1 + 3 * ε) ^ 2 - 1)) =
            x * ((1 + δ) ^ 2 * (1 + 54 * τ) * (1 + 3 * ε) ^ 2) := by ring
        rw [e]
        have hle : x * ((1 + δ) ^ 2 * (1 + 54 * τ) * (1 + 3 * ε) ^ 2) ≤ 2 := by
          refine le_trans ?_ hxQ1
          rw [hQe]
          exact mul_le_mul_of_nonneg_left (le_mul_of_one_le_right (by positivity) (by linarith)) (by linarith)
        refine le_trans (mul_le_mul_of_nonneg_right (c := 6) (b := 3 * (x * ((1 + δ) ^ 2 * (1 + 54 * τ) * (1 + 3 * ε) ^ 2)))
          (by linarith) (by linarith)) ?_
        linarith)
      have h3 := ih (x * Q) _ _ _ (fun g hg => hp g (by simp [hg])) (one_le_mul_of_one_le_of_one_le hx hQ1)
        (by linarith) hxQ' (by linarith) (h2.mono (le_of_eq (by rw [hQe]; ring)) le_rfl)
      rw [List.foldl_cons, e1, e2, ← mul_assoc, List.length_cons]
      refine h3.mono (le_of_eq ?_) (le_of_eq ?_)
      · rw [pow_succ]; ring
      · push_cast; ring
  cases p with
  | nil => exact absurd rfl hp
  | cons f p =>
    have hf := h f (by simp)
    have hr := hreach p
    have hlf := hlocal f
    have hnℓ : 0 ≤ 3 * (p.length : ℝ) * ℓ := by positivity
    rw [e2, List.length_cons] at hb
    push_cast at hb
    rw [← hQd, List.length_cons, pow_succ] at hQ
    have hP : 1 ≤ Q ^ p.length := one_le_pow₀ hQ1
    have hQ2 : Q ≤ 2 := le_trans (le_mul_of_one_le_left (by linarith) hP) hQ
    have hloc := localI_within m hu hκ h1 hℓ hℓ1 hη hε hf (val f.joint) (by rw [← hQd]; exact hQ2) (by linarith)
    have hx : 1 ≤ (1 + δ) ^ 2 * (1 + 54 * τ) * (1 + 3 * ε) ^ 2 :=
      one_le_mul_of_one_le_of_one_le (one_le_mul_of_one_le_of_one_le (one_le_pow₀ (by linarith)) (by linarith))
        (one_le_pow₀ (by linarith))
    have hxQ : (1 + δ) ^ 2 * (1 + 54 * τ) * (1 + 3 * ε) ^ 2 ≤ Q := by
      rw [hQe]; exact le_mul_of_one_le_right (by positivity) (by linarith)
    have h2 := step p _ _ _ _ (fun g hg => h g (by simp [hg])) hx (by linarith)
      ((mul_le_mul_of_nonneg_right hxQ (by positivity)).trans (by linarith)) (by linarith) hloc
    rw [e1, e2, ← hQd, List.length_cons]
    refine h2.mono (sub_le_sub_right ?_ 1) (le_of_eq (by push_cast; ring))
    rw [pow_succ Q, mul_comm (Q ^ p.length)]
    exact mul_le_mul_of_nonneg_right hxQ (by positivity)

end

/-- **C133**: for finite joint values, no entry of a pose is an infinity or NaN, and rounding errors stay as small as without
bounds on the exponent, as long as the arm is not longer than a sixth of the largest numbers; underflow counts as if every
translation were longer by `ℓ`, a length that may be chosen as small as the arithmetic's underflow permits. -/
theorem C133_finite (m : Ieee) {δ τ ε ℓ : ℝ} (hu : m.u + m.η ≤ τ) (hκ : m.κ ≤ τ) (h1 : τ ≤ 1 / 100) (hℓ : 0 < ℓ) (hℓ1 : ℓ ≤ 1)
    (hη : m.η ≤ τ * ℓ) (hε : m.γ + m.ζ / ℓ ≤ ε) (root : Frame) (h : WF root)
    {B : ℕ} (th : List (Fin B → ℝ)) (hth : th.length = (movingJoints root).length) (I : Ideal)
    (hI : ∀ f ∈ preorder root, StoredAs δ τ I f) :
    ∃ d, forwardKinematicsI m root (th.map fun c b => .fin (c b)) = .ok d ∧ d.keys = (preorder root).map Frame.name ∧
      ∀ p f, IsPath root p → p.getLast? = some f → perFrameFactor δ τ ε ^ p.length ≤ 2 →
        ∃ T, d.get? f.name = some T ∧ ∀ b, 6 * (1 + (I.reach (colVal root th b) p + 3 * p.length * ℓ)) ≤ m.big →
          WithinI (perFrameFactor δ τ ε ^ p.length - 1) (I.reach (colVal root th b) p + 3 * p.length * ℓ)
            (T b) (I.pose (colVal root th b) p) := by
  obtain ⟨d, hd, hk, hp⟩ := forwardKinematicsI_ok m h (th.map fun c b => .fin (c b)) (by rw [List.length_map, hth])
  refine ⟨d, hd, hk, fun p f hpath hl hQ => ?_⟩
  obtain ⟨T, hT, hb⟩ := hp p f hpath hl
  refine ⟨T, hT, fun b hbig => ?_⟩
  have e : colI root (th.map fun c b => Fl.fin (c b)) b = fun j => .fin (colVal root th b j) := by
    funext j
    simp only [colI, colVal, List.getD, List.getElem?_map]
    cases th[column root j]? <;> rfl
  rw [hb b, e]
  exact pathI_within m hu hκ h1 hℓ hℓ1 hη hε _ (fun hn => by rw [hn] at hl; simp at hl)
    (fun g hg => hI g (isPath_mem hpath g hg)) hQ hbig

/-- **C133**: in a format with `q` binary digits, smallest normal number `2 ^ e` and largest exponent `E` (`float32`: 24, -126 and
127; `float64`: 53, -1022 and 1023) and exactly representable data, all entries of the computed pose of a frame are finite and it
differs from the exact pose (`C01`) by at most `206 n / 2 ^ q`. -/
theorem C133_formats (q : ℕ) (e E : ℤ) (hq : 10 ≤ q) (he : e ≤ -4) (hE : 6 ≤ E) (root : Frame) (h : WF root) (hr : RigidTree root)
    {B : ℕ} (th : List (Fin B → ℝ)) (hth : th.length = (movingJoints root).length) :
    ∃ d d', (Chain.init root).forwardKinematics th = .ok d ∧
      forwardKinematicsI (ieee q e E (by omega) (by omega) (by omega)) root (th.map fun c b => .fin (c b)) = .ok d' ∧
      d'.keys = d.keys ∧
      ∀ p f, IsPath root p → p.getLast? = some f → 206 * (p.length : ℝ) ≤ 2 ^ q →
        ∃ T T', d.get? f.name = some T ∧ d'.get? f.name = some T' ∧ ∀ b,
          6 * (1 + asStored.reach (colVal root th b) p + 3 * p.length) ≤ 2 ^ (E - 4) →
          ∃ Y : M4, (∀ i j, T' b i j = .fin (Y i j)) ∧
            fro (rotPart Y - rotPart (T b)) ≤ 206 * p.length / 2 ^ q ∧
            vlen (posPart Y - posPart (T b)) ≤
              206 * p.length / 2 ^ q * (asStored.reach (colVal root th b) p + 3 * p.length * 2 ^ (e + 4)) := by
  obtain ⟨m, hm⟩ : ∃ m, m = ieee q e E (by omega) (by omega) (by omega) := ⟨_, rfl⟩
  obtain ⟨d, hd, hk, hp⟩ := C01_fk_is_path_product root h th hth
  obtain ⟨u, hu⟩ : ∃ u : ℝ, u = 1 / 2 ^ q := ⟨_, rfl⟩
  obtain ⟨ℓ, hℓ⟩ : ∃ ℓ : ℝ, ℓ = 2 ^ (e + 4) := ⟨_, rfl⟩
  have hU : m.u = u := by
    rw [hm, hu]
    show (2 : ℝ) ^ (-(q : ℤ)) = _
    rw [zpow_neg, zpow_natCast, one_div]
  have hN : m.η = u * ℓ / 16 := by
    rw [hm, hu, hℓ]
    show (2 : ℝ) ^ (e - (q : ℤ)) = _
    rw [zpow_sub₀ (by norm_num), zpow_natCast, zpow_add₀ (by norm_num)]
    norm_num
    ring
  have hK : m.κ = m.u + m.η := by rw [hm]; rfl
  have hB : m.big = 2 ^ (E - 4) := by rw [hm]; rfl
  have h0 : 0 < u := by rw [hu]; positivity
  have h1 : u ≤ 1 / 1024 := by
    rw [hu, show (1024 : ℝ) = 2 ^ 10 by norm_num]
    exact one_div_le_one_div_of_le (by positivity) (pow_le_pow_right₀ (by norm_num) hq)
  have hℓ0 : 0 < ℓ := by rw [hℓ]; positivity
  have hℓ1 : ℓ ≤ 1 := by
    rw [hℓ, ← zpow_zero (2 : ℝ)]
    exact zpow_le_zpow_right₀ (by norm_num) (by omega)
  have hγ : m.γ = (1 + u) ^ 4 - 1 := by rw [← hU, hm]; rfl
  have hζ : m.ζ = 13 * m.η := by rw [hm]; rfl
  have hγ' : m.γ ≤ 4.1 * u := by
    rw [hγ]
    have : u * u ≤ u * (1 / 1024) := mul_le_mul_of_nonneg_left h1 h0.le
    have h3 : u ^ 3 ≤ u * u := by nlinarith [mul_nonneg h0.le h0.le]
    have h4 : u ^ 4 ≤ u * u := by nlinarith [mul_nonneg h0.le h0.le, pow_nonneg h0.le 3]
    nlinarith
  have hζ' : m.ζ / ℓ = 13 / 16 * u := by
    rw [hζ, hN]; field_simp
  have huℓ : u * ℓ ≤ u := mul_le_of_le_one_right h0.le hℓ1
  have hτ : m.u + m.η ≤ 17 / 16 * u := by rw [hU, hN]; linarith
  obtain ⟨d', hd', hk', hp'⟩ := C133_finite m (δ := 0) (τ := 17 / 16 * u) (ε := 5 * u) (ℓ := ℓ) hτ (by rw [hK]; exact hτ)
    (by linarith) hℓ0 hℓ1 (by rw [hN]; nlinarith [mul_pos h0 hℓ0]) (by rw [hζ']; linarith) root h th hth asStored
    (asStored_storedAs hr (by positivity))
  rw [← hm]
  refine ⟨d, d', hd, hd', by rw [hk, hk'], fun p f hpath hl hn => ?_⟩
  have hn' : (p.length : ℝ) * (103 * u) ≤ 1 / 2 := by
    rw [hu, ← mul_assoc, mul_one_div, div_le_iff₀ (by positivity)]
    linarith
  have key : perFrameFactor 0 (17 / 16 * u) (5 * u) ^ p.length - 1 ≤ 206 * p.length / (2 : ℝ) ^ q := by
    refine (pow_sub_one_le (x := 103 * u) (by positivity) (by positivity)
      ((factor_le_exp le_rfl (by positivity) (by positivity)).trans (Real.exp_le_exp.2 ?_)) (by linarith)).trans (le_of_eq ?_)
    · linarith
    · rw [hu]; ring
  have hQ : perFrameFactor 0 (17 / 16 * u) (5 * u) ^ p.length ≤ 2 := by
    have : 206 * p.length / (2 : ℝ) ^ q ≤ 1 := (div_le_one (by positivity)).2 hn
    linarith
  obtain ⟨T, hT, hb⟩ := hp p f hpath hl
  obtain ⟨T', hT', hb'⟩ := hp' p f hpath hl hQ
  refine ⟨T, T', hT, hT', fun b hbig => ?_⟩
  obtain ⟨Y, hY, hw⟩ := hb' b (by
    rw [hB]
    refine le_trans ?_ hbig
    have : 3 * (p.length : ℝ) * ℓ ≤ 3 * p.length := mul_le_of_le_one_right (by positivity) hℓ1
    linarith)
  have hw := hw.mono key le_rfl
  rw [asStored_pose, ← hb b, hℓ] at hw
  exact ⟨Y, hY, hw.rot, hw.pos⟩

/-- **C133**: a pose depends only on the values of the joints on the path to its frame, in its own row: whatever another joint or
another row contains (infinities and NaN included), and whatever the size of the batch, the pose is the same. -/
theorem C133_isolated (m : Ieee) (root : Frame) (h : WF root) {B B' : ℕ} (th : List (Fin B → Fl)) (th' : List (Fin B' → Fl))
    (hth : th.length = (movingJoints root).length) (hth' : th'.length = (movingJoints root).length) :
    ∃ d d', forwardKinematicsI m root th = .ok d ∧ forwardKinematicsI m root th' = .ok d' ∧
      ∀ p f, IsPath root p → p.getLast? = some f → ∃ T T', d.get? f.name = some T ∧ d'.get? f.name = some T' ∧
        ∀ b b', (∀ g ∈ p, Moving g.joint → colI root th b g.joint = colI root th' b' g.joint) → T b = T' b' := by
  obtain ⟨d, hd, -, hp⟩ := forwardKinematicsI_ok m h th hth
  obtain ⟨d', hd', -, hp'⟩ := forwardKinematicsI_ok m h th' hth'
  refine ⟨d, d', hd, hd', fun p f hpath hl => ?_⟩
  obtain ⟨T, hT, hb⟩ := hp p f hpath hl
  obtain ⟨T', hT', hb'⟩ := hp' p f hpath hl
  refine ⟨T, T', hT, hT', fun b b' hag => ?_⟩
  rw [hb, hb']
  have hloc : ∀ g ∈ p, localI m g (colI root th b g.joint) = localI m g (colI root th' b' g.joint) := by
    intro g hg
    by_cases hm : Moving g.joint
    · rw [hag g hg hm]
    · have : g.joint.jtype = .fixed := by simpa [Moving] using hm
      simp [localI, motionI, this]
  cases p with
  | nil => rfl
  | cons f p =>
    simp only [pathI]
    rw [hloc f (by simp)]
    have : ∀ (q : List Frame) (X : FM4), (∀ g ∈ q, localI m g (colI root th b g.joint) = localI m g (colI root th' b' g.joint)) →
        q.foldl (fun T g => m.mul T (localI m g (colI root th b g.joint))) X =
        q.foldl (fun T g => m.mul T (localI m g (colI root th' b' g.joint))) X := by
      intro q
      induction q with
      | nil => intros; rfl
      | cons g q ih =>
        intro X hq
        rw [List.foldl_cons, List.foldl_cons, hq g (by simp)]
        exact ih _ fun g hg => hq g (by simp [hg])
    exact this p _ fun g hg => hloc g (by simp [hg])

/-- every row of the matrix contains an infinity or NaN -/
def Spoiled (T : FM4) : Prop := ∀ i, ∃ j, (T i j).isFinite = false

theorem spoiled_mul_left (m : Ieee) {A B : FM4} (h : Spoiled A) : Spoiled (m.mul A B) := fun i => by
  obtain ⟨k, hk⟩ := h i
  exact ⟨0, m.mul_strict A B i 0 k (.inl hk)⟩

theorem spoiled_mul_right (m : Ieee) {A B : FM4} (h : ∃ k j, (B k j).isFinite = false) : Spoiled (m.mul A B) := fun i => by
  obtain ⟨k, j, hk⟩ := h
  exact ⟨j, m.mul_strict A B i j k (.inr hk)⟩

theorem motionI_strict (m : Ieee) {j : Joint} (hm : Moving j) {q : Fl} (hq : q.isFinite = false) :
    ∃ k l, (motionI m j q k l).isFinite = false := by
  cases ht : j.jtype with
  | fixed => exact absurd ht hm
  | revolute =>
    refine ⟨0, 0, ?_⟩
    simp only [motionI, ht]
    exact m.res_strict (add_strict (.inl (m.cos_strict q hq)))
  | prismatic =>
    refine ⟨0, 3, ?_⟩
    simp only [motionI, ht]
    exact m.res_strict (mulFl_strict (.inr hq))

/-- **C133**: an infinity or NaN among the joint values shows: the pose of every frame that the joint moves has an infinity or NaN
in each row of its matrix. -/
theorem C133_visible (m : Ieee) (root : Frame) (h : WF root) {B : ℕ} (th : List (Fin B → Fl))
    (hth : th.length = (movingJoints root).length) :
    ∃ d, forwardKinematicsI m root th = .ok d ∧ ∀ p f, IsPath root p → p.getLast? = some f →
      ∃ T, d.get? f.name = some T ∧ ∀ b, (∃ g ∈ p, Moving g.joint ∧ (colI root th b g.joint).isFinite = false) → Spoiled (T b) := by
  obtain ⟨d, hd, -, hp⟩ := forwardKinematicsI_ok m h th hth
  refine ⟨d, hd, fun p f hpath hl => ?_⟩
  obtain ⟨T, hT, hb⟩ := hp p f hpath hl
  refine ⟨T, hT, fun b ⟨g, hg, hm, hq⟩ => ?_⟩
  rw [hb]
  have hloc : Spoiled (localI m g (colI root th b g.joint)) := spoiled_mul_right m (motionI_strict m hm hq)
  have keep : ∀ (q : List Frame) (X : FM4), Spoiled X →
      Spoiled (q.foldl (fun T g => m.mul T (localI m g (colI root th b g.joint))) X) := by
    intro q
    induction q with
    | nil => intro X h; exact h
    | cons g q ih => intro X h; exact ih _ (spoiled_mul_left m h)
  have reach : ∀ (q : List Frame) (X : FM4), g ∈ q →
      Spoiled (q.foldl (fun T g => m.mul T (localI m g (colI root th b g.joint))) X) := by
    intro q
    induction q with
    | nil => intro X h; cases h
    | cons g' q ih =>
      intro X h
      rcases List.mem_cons.1 h with rfl | h
      · exact keep q _ (spoiled_mul_right m ⟨0, hloc 0⟩)
      · exact ih _ h
  cases p with
  | nil => cases hg
  | cons f p =>
    rcases List.mem_cons.1 hg with rfl | hg
    · exact keep p _ hloc
    · exact reach p _ hg

/-- the arm of `exTree` in `float32`: finite entries, and close to the exact ones -/
example : ∃ d' T' Y, forwardKinematicsI float32 exTree (B := 1) [fun _ => .fin 1, fun _ => .fin 3, fun _ => .fin 2] = .ok d' ∧
    d'.get? ['a'] = some T' ∧ (∀ i j, T' 0 i j = .fin (Y i j)) ∧
    ∃ d T, (Chain.init exTree).forwardKinematics (B := 1) [fun _ => 1, fun _ => 3, fun _ => 2] = .ok d ∧
      d.get? ['a'] = some T ∧ fro (rotPart Y - rotPart (T 0)) ≤ 206 * 3 / 2 ^ 24 := by
  obtain ⟨d, d', h1, h2, -, h3⟩ := C133_formats 24 (-126) 127 (by norm_num) (by norm_num) (by norm_num) exTree exTree_wf
    exTree_rigid (B := 1) [fun _ => 1, fun _ => 3, fun _ => 2]
    (by simp [exTree, movingJoints, preorder, preorderL, Frame.joint, Moving])
  have hp : ∃ p, IsPath exTree p ∧ p.length = 3 ∧ ∃ f, p.getLast? = some f ∧ f.name = ['a'] ∧
      asStored.reach (colVal exTree (B := 1) [fun _ => 1, fun _ => 3, fun _ => 2] 0) p ≤ 100 := by
    have hv : ∀ j, |colVal exTree (B := 1) [fun _ => 1, fun _ => 3, fun _ => 2] 0 j| ≤ 3 := fun j => by
      unfold colVal
      rcases column exTree j with _ | _ | _ | n <;> norm_num
    generalize colVal exTree (B := 1) [fun _ => 1, fun _ => 3, fun _ => 2] 0 = v at hv
    refine ⟨_, .snoc [exTree] _ _ (.snoc [] _ _ .single (List.mem_cons_self ..)) (List.mem_cons_self ..), rfl, _, rfl, rfl, ?_⟩
    simp only [Ideal.reach, asStored, travel, List.map_cons, List.map_nil, List.nil_append, List.cons_append, List.sum_cons,
      List.sum_nil, exTree, Frame.link, Frame.joint, Option.getD_none, Option.getD_some, posPart_mkHom]
    have h3 := hv { name := some ['j', '2'], jtype := .prismatic, axis := ![1, 0, 0], offset := some (mkHom 1 ![2, 0, 0]) }
    simp [vlen, posPart] at h3 ⊢
    linarith
  obtain ⟨p, hp, hl, f, hf, hn, hr⟩ := hp
  obtain ⟨T, T', h4, h5, h6⟩ := h3 p f hp hf (by rw [hl]; norm_num)
  rw [hn] at h4 h5
  obtain ⟨Y, hY, h7, -⟩ := h6 0 (by
    rw [hl]
    refine le_trans (b := (1024 : ℝ)) (by push_cast; linarith) ?_
    rw [show (1024 : ℝ) = 2 ^ (10 : ℤ) by norm_num]
    exact zpow_le_zpow_right₀ (by norm_num) (by norm_num))
  rw [hl] at h7
  exact ⟨d', T', Y, h2, h5, hY, d, T, h1, h4, by simpa using h7⟩

/-- a number beyond the range overflows -/
example : float32.rnd (2 ^ 128) = .pinf := by
  have hl : Int.log 2 |(2 : ℝ) ^ 128| = 128 := by
    rw [abs_of_pos (by positivity)]
    exact_mod_cast Int.log_zpow (R := ℝ) (b := 2) (by norm_num) 128
  have hn : ieeeNear 24 (-126) (2 ^ 128) = 2 ^ 128 := by
    simp only [ieeeNear, hl]
    have : (2 : ℝ) ^ 128 * 2 ^ (-(max (128 : ℤ) (-126) - (((24 : ℕ) : ℤ) - 1))) = ((2 ^ 23 : ℤ) : ℝ) := by norm_num
    rw [this, roundEven_int]
    norm_num
  show ieeeRnd 24 (-126) 127 (2 ^ 128) = .pinf
  unfold ieeeRnd
  rw [hn, if_neg (by norm_num), if_pos (by positivity)]

/-- a number far below the smallest one underflows -/
example : float32.rnd (1 / 2 ^ 151) = .fin 0 := by
  have hl : Int.log 2 |(1 : ℝ) / 2 ^ 151| = -151 := by
    rw [abs_of_pos (by positivity)]
    have := Int.log_zpow (R := ℝ) (b := 2) (by norm_num) (-151)
    rw [← this]
    norm_num
  have hn : ieeeNear 24 (-126) (1 / 2 ^ 151) = 0 := by
    simp only [ieeeNear, hl]
    have : (1 : ℝ) / 2 ^ 151 * 2 ^ (-(max (-151 : ℤ) (-126) - (((24 : ℕ) : ℤ) - 1))) = 1 / 4 := by norm_num
    have h4 : Fl.roundEven (1 / 4) = 0 := by
      have := roundEven_half (1 / 4)
      have h1 : |(Fl.roundEven (1 / 4 : ℝ) : ℝ)| < 1 := by
        have := abs_le.1 this
        rw [abs_lt]
        constructor <;> linarith
      rw [← Int.abs_lt_one_iff]
      exact_mod_cast h1
    rw [this, h4]
    simp
  show ieeeRnd 24 (-126) 127 _ = .fin 0
  unfold ieeeRnd
  rw [hn, if_pos (by norm_num)]

/-- NaN in the joint of the branch of `['a']`: its pose is spoiled, that of the other branch is not affected -/
example : ∃ d d', forwardKinematicsI float32 exTree (B := 1) [fun _ => .nan, fun _ => .fin 3, fun _ => .fin 2] = .ok d ∧
    forwardKinematicsI float32 exTree (B := 1) [fun _ => .fin 1, fun _ => .fin 3, fun _ => .fin 2] = .ok d' ∧
    (∃ T, d.get? ['a'] = some T ∧ Spoiled (T 0)) ∧ ∃ T, d.get? ['e'] = some T ∧ d'.get? ['e'] = some T := by
  have hlen : ∀ {α : Type} (x y z : α), [x, y, z].length = (movingJoints exTree).length := by
    intros; simp [exTree, movingJoints, preorder, preorderL, Frame.joint, Moving]
  obtain ⟨d, h1, h2⟩ := C133_visible float32 exTree exTree_wf (B := 1) [fun _ => .nan, fun _ => .fin 3, fun _ => .fin 2] (hlen ..)
  obtain ⟨d₁, d', h1', h3, h4⟩ := C133_isolated float32 exTree exTree_wf (B := 1) (B' := 1)
    [fun _ => .nan, fun _ => .fin 3, fun _ => .fin 2] [fun _ => .fin 1, fun _ => .fin 3, fun _ => .fin 2] (hlen ..) (hlen ..)
  obtain rfl : d = d₁ := by rw [h1] at h1'; exact Except.ok.inj h1'
  have p1 : ∃ p, IsPath exTree p ∧ (∃ f, p.getLast? = some f ∧ f.name = ['a']) ∧
      ∃ g ∈ p, g.joint.jtype = .revolute ∧ column exTree g.joint = 0 := by
    refine ⟨_, .snoc [exTree] _ _ (.snoc [] _ _ .single (List.mem_cons_self ..)) (List.mem_cons_self ..), ⟨_, rfl, rfl⟩, ?_⟩
    refine ⟨_, List.mem_cons_of_mem _ (List.mem_cons_self ..), rfl, ?_⟩
    simp [column, exTree, movingJoints, preorder, preorderL, Frame.joint, Moving]
  have p2 : ∃ p, IsPath exTree p ∧ (∃ f, p.getLast? = some f ∧ f.name = ['e']) ∧
      ∀ g ∈ p, Moving g.joint → column exTree g.joint = 2 := by
    refine ⟨_, .snoc [] exTree _ .single (List.mem_cons_of_mem _ (List.mem_cons_self ..)), ⟨_, rfl, rfl⟩, ?_⟩
    intro g hg hm
    rcases List.mem_cons.1 hg with rfl | hg
    · exact absurd rfl hm
    · obtain rfl := List.mem_singleton.1 hg
      simp [column, exTree, movingJoints, preorder, preorderL, Frame.joint, Moving, List.idxOf, List.findIdx_cons]
  obtain ⟨p, hp, ⟨f, hf, hn⟩, g, hg, hm, hc⟩ := p1
  obtain ⟨q, hq, ⟨f', hf', hn'⟩, hall⟩ := p2
  obtain ⟨T, hT, hs⟩ := h2 p f hp hf
  obtain ⟨S, S', hS, hS', hag⟩ := h4 q f' hq hf'
  rw [hn] at hT
  rw [hn'] at hS hS'
  refine ⟨d, d', h1, h3, ⟨T, hT, hs 0 ⟨g, hg, by simp [Moving, hm], by simp [colI, hc, Fl.isFinite]⟩⟩, S, hS, ?_⟩
  rw [hS']
  congr 1
  funext b
  exact (hag b b fun g hg hm => by simp [colI, hall g hg hm]).symm

end PK
