import Verif.Lemmas.TensorMath
import Verif.Props.Math

/-!
# C129: `sample_perturbations` on tensors
-/

namespace PK
open Tn Spec Classical Real Matrix
variable {d : DType} {v : Device} {n : ℕ}

theorem valueFor_VB (t : Tag) {s r : Shape} (m : ℕ) (f : List ℕ → Fin m → ℝ) (h : bshape s r = .ok r) :
    valueFor (ofV t s m f) (r ++ [m]) = .ok (ofV t r m fun i => f (bidx s i)) := by
  have hb := bshape_snoc (a := m) (b := m) (c := m) h (.inl ⟨rfl, rfl⟩)
  have h0 : (s ++ [m]).length - (r ++ [m]).length = 0 := by
    have := (bshape_len h).1
    simp only [List.length_append]
    omega
  have e : ofFn (ofV t s m f).tag (ofV t s m f).shape (ofV t s m f).get = ofV t s m f := ofFn_eta _
  simp only [valueFor, ofV_shape, h0, List.take_zero, List.all_nil, if_true, List.drop_zero, List.replicate_zero, List.nil_append]
  rw [← ofV_shape t s m f, e, expand, ofV_shape, if_pos hb]
  refine congrArg Except.ok (eq_ofV rfl rfl fun i k hk hi => ?_)
  rw [ofFn_get (validIx_snoc.2 ⟨hi, hk⟩), bidx_snoc, if_one hk, ofV_get (bidx_left h hi) hk]

theorem setColumn_MB (t t' : Tag) {s r : Shape} (h : bshape s r = .ok r) (f : List ℕ → Fin 4 → Fin 4 → ℝ) (g : List ℕ → Fin 3 → ℝ) :
    setColumn (ofM t r 4 4 f) 3 3 (ofV t' s 3 g) = setColumn (ofM t r 4 4 f) 3 3 (ofV t' r 3 fun i => g (bidx s i)) := by
  rw [setColumn, setColumn]
  simp only [ofM_shape, shape_rev2, List.reverse_reverse, ofM_tag]
  rw [valueFor_VB _ _ _ h, valueFor_same (by rfl)]

theorem inPlace_V (f : ℝ → ℝ → ℝ) (t : Tag) {s r : Shape} (m : ℕ) (a b : List ℕ → Fin m → ℝ) (h : bshape r s = .ok r) :
    inPlace f (ofV t r m a) (ofV t s m b) = .ok (ofV t r m fun i k => f (a i k) (b (bidx s i) k)) := by
  rw [inPlace, bin_VB _ _ _ _ _ h, ok_bind, if_pos (by rfl), pure_ok]
  refine congrArg Except.ok (eq_ofV rfl rfl fun i k hk hi => ?_)
  rw [ofFn_get (by exact validIx_snoc.2 ⟨hi, hk⟩), ofV_get hi hk, bidx_valid hi]

theorem alongT_V {s : Shape} (h : bshape s [n] = .ok [n]) (a b : List ℕ → Fin 3 → ℝ) :
    alongT (ofV (flTag d v) [n] 3 a) (ofV (flTag d v) s 3 b) =
      .ok (ofV (flTag d v) [n] 3 fun i k => (∑ l, a i l * b (bidx s i) l) * b (bidx s i) k) := by
  have h' := (bshape_comm _ _).trans h
  rw [alongT, mul, bin_VB _ _ _ _ _ h', ok_bind, if_pos (by rfl), sumKeep_V, ok_bind, bin_1VB _ _ _ _ _ h']
  refine congrArg Except.ok (eq_ofV rfl rfl fun i k hk hi => ?_)
  rw [ofV_get hi hk, bidx_valid hi, bidx_valid hi]

/-- the axis a row uses -/
noncomputable def axisRow (axis : Option (Tn ℝ)) (sa : Shape) (i : List ℕ) : Option V3 := axis.map fun a => vecAt 3 a (bidx sa i)

theorem axisAndShift_V {sa : Shape} (h : bshape sa [n] = .ok [n]) {axis : Option (Tn ℝ)}
    (ha : ∀ a, axis = some a → HasVec a sa 3 (flTag d v)) (perp : Bool) (ts : ℝ) (t o : List ℕ → Fin 3 → ℝ) (x : List ℕ → ℝ) :
    ∃ sb f, bshape sb [n] = .ok [n] ∧ axisAndShift axis perp (ofV (flTag d v) [n] 3 fun i k => t i k * ts) (ofV (flTag d v) [n] 3 o) =
        .ok (ofV (flTag d v) sb 3 f, ofV (flTag d v) [n] 3 fun i => perturbDeltaT ⟨t i, x i, o i⟩ ts (axisRow axis sa i) perp) ∧
      ∀ i, ValidIx i [n] → f (bidx sb i) = perturbAxis ⟨t i, x i, o i⟩ (axisRow axis sa i) := by
  rcases axis with _ | a
  · refine ⟨[n], fun i k => o i k / Real.sqrt (∑ k, o i k * o i k), bshape_self _, ?_, fun i hi => ?_⟩
    · rw [axisAndShift, norm_V, ok_bind, div, bin_V1, ok_bind]
      rfl
    · rw [bidx_valid hi]
      simp only [perturbAxis, axisRow, Option.map_none, norm3, dot, Fin.sum_univ_three]
  · have hv := ha a rfl
    refine ⟨sa, vecAt 3 a, h, ?_, fun i _ => rfl⟩
    cases perp
    · rw [axisAndShift]
      simp only [Bool.false_eq_true, if_false]
      rw [← hv.eq]
      rfl
    · rw [axisAndShift]
      simp only [if_true]
      have e := congrArg (alongT (ofV (flTag d v) [n] 3 fun i k => t i k * ts)) hv.eq
      rw [alongT_V h] at e
      rw [e, ok_bind, inPlace_V _ _ _ _ _ (bshape_self _), ok_bind, ← hv.eq]
      refine congrArg (fun z => Except.ok (a, z)) (eq_ofV rfl rfl fun i k hk hi => ?_)
      rw [ofV_get hi hk, bidx_valid hi]
      simp only [perturbDeltaT, axisRow, Option.map_some, if_true, dot, Fin.sum_univ_three]

theorem samplePerturbationsT_V {sT sa : Shape} (hT : bshape sT [n] = .ok [n]) (h : bshape sa [n] = .ok [n]) {axis : Option (Tn ℝ)}
    (ha : ∀ a, axis = some a → HasVec a sa 3 (flTag d v)) (perp : Bool) (rs ts : ℝ) (m : List ℕ → Fin 4 → Fin 4 → ℝ)
    (t o : List ℕ → Fin 3 → ℝ) (x : List ℕ → ℝ) :
    samplePerturbationsT (ofM (flTag d v) sT 4 4 m) n rs ts axis perp (ofV (flTag d v) [n] 3 t) (ofFn (flTag d v) [n] x) (ofV (flTag d v) [n] 3 o) =
      .ok (ofM (flTag d v) [n] 4 4 fun i => samplePerturbation (.of (m (bidx sT i))) ⟨t i, x i, o i⟩ rs ts (axisRow axis sa i) perp) := by
  obtain ⟨sb, f, hb, hA, hf⟩ := axisAndShift_V h ha perp ts t o x
  have he := eyes_M (flTag d v) [n]
  rw [eyes] at he
  rw [samplePerturbationsT]
  simp only
  have he' : repeatT (eye4 (ofM (flTag d v) sT 4 4 m).tag) [n, 1, 1] = _ := he
  rw [he', ok_bind, map_V, map_S, hA, ok_bind]
  simp only
  rw [axisAndAngleToMatrix33_V d v hb, ok_bind, rotBlock_M, ok_bind,
    matmulT_MB _ _ _ _ _ _ ((bshape_comm _ _).trans hT), ok_bind, setBlock_M, ok_bind, posColumn_M, ok_bind, setColumn_MB _ _ hT, setColumn_M, ok_bind,
    posColumn_M, ok_bind, inPlace_V _ _ _ _ _ (bshape_self _), ok_bind, setColumn_M]
  refine congrArg Except.ok (eq_ofM rfl rfl fun i r c hr hc hi => ?_)
  rw [ofM_get hi hr hc]
  simp only [bidx_valid hi, hf i hi]
  have h3 : r = 0 ∨ r = 1 ∨ r = 2 ∨ r = 3 := by omega
  have h4 : c = 0 ∨ c = 1 ∨ c = 2 ∨ c = 3 := by omega
  rcases h3 with rfl | rfl | rfl | rfl <;> rcases h4 with rfl | rfl | rfl | rfl <;>
    simp [samplePerturbation, hom, posPart, rotPart, Matrix.mul_apply, Fin.sum_univ_three]

/-- What the draws of `torch.randn` look like: their shapes, dtype and device -/
structure Draws (dt da o : Tn ℝ) (n : ℕ) (t : Tag) : Prop where
  shift : HasVec dt [n] 3 t
  angle : HasNum da [n] t
  axis : HasVec o [n] 3 t

theorem samplePerturbationsT_at {sT sa : Shape} (hT : bshape sT [n] = .ok [n]) (h : bshape sa [n] = .ok [n]) {axis : Option (Tn ℝ)}
    (ha : ∀ a, axis = some a → HasVec a sa 3 (flTag d v)) (perp : Bool) (rs ts : ℝ) {T dt da o : Tn ℝ}
    (hM : HasMat T sT 4 4 (flTag d v)) (hd : Draws dt da o n (flTag d v)) :
    ∃ P, samplePerturbationsT T n rs ts axis perp dt da o = .ok P ∧ HasMat P [n] 4 4 (flTag d v) ∧
      ∀ k : Fin n, matAt 4 4 P [k] = samplePerturbations (fun _ : Fin 1 => matAt 4 4 T (bidx sT [k]))
        (fun _ => ⟨vecAt 3 dt [k], da.get [k], vecAt 3 o [k]⟩) rs ts (axisRow axis sa [k]) perp 0 := by
  have e := samplePerturbationsT_V hT h ha perp rs ts (matAt 4 4 T) (vecAt 3 dt) (vecAt 3 o) da.get
  refine ⟨_, Eq.trans ?_ e, hasMat_ofM _ _ _ _, fun k => ?_⟩
  · exact by rw [← hM.eq, ← hd.1.eq, ← hd.2.eq, ← hd.3.eq]
  · funext r c
    exact ofM_get (t := flTag d v) (f := fun i : List ℕ => samplePerturbation (of (matAt 4 4 T (bidx sT i))) ⟨vecAt 3 dt i, da.get i, vecAt 3 o i⟩ rs ts
      (axisRow axis sa i) perp) (by exact valid1.2 k.2) r.2 c.2

/-- C129, with an axis of rotation of shape `(3,)`, `(1, 3)` or `(n, 3)` and one transform or `n` of them: row `k` of the result
is the transform of row `k` turned about the axis of row `k` by its own drawn angle times the rotation sigma, and shifted by
its own drawn translation times the translation sigma: without the component along the axis by default, whole otherwise. -/
theorem C129_axis {sT sa : Shape} (hT : bshape sT [n] = .ok [n]) (h : bshape sa [n] = .ok [n]) (rs ts : ℝ) {T a dt da o : Tn ℝ}
    (hM : HasMat T sT 4 4 (flTag d v)) (ha : HasVec a sa 3 (flTag d v)) (hd : Draws dt da o n (flTag d v)) :
    ∃ P Q, samplePerturbationsT T n rs ts (some a) true dt da o = .ok P ∧ HasMat P [n] 4 4 (flTag d v) ∧
      samplePerturbationsT T n rs ts (some a) false dt da o = .ok Q ∧ HasMat Q [n] 4 4 (flTag d v) ∧
      ∀ k : Fin n, IsUnitV (vecAt 3 a (bidx sa [k])) →
        (∀ X ∈ [P, Q], rotPart (matAt 4 4 X [k]) = rotAbout (vecAt 3 a (bidx sa [k])) (da.get [k] * rs) * rotPart (matAt 4 4 T (bidx sT [k])) ∧
          (IsRigid (matAt 4 4 T (bidx sT [k])) → IsRigid (matAt 4 4 X [k]))) ∧
        (posPart (matAt 4 4 P [k]) - posPart (matAt 4 4 T (bidx sT [k]))) ⬝ᵥ vecAt 3 a (bidx sa [k]) = 0 ∧
        (∃ c : ℝ, posPart (matAt 4 4 P [k]) - posPart (matAt 4 4 T (bidx sT [k])) = ts • vecAt 3 dt [k] - c • vecAt 3 a (bidx sa [k])) ∧
        posPart (matAt 4 4 Q [k]) - posPart (matAt 4 4 T (bidx sT [k])) = ts • vecAt 3 dt [k] := by
  have ha' : ∀ b, some a = some b → HasVec b sa 3 (flTag d v) := fun b hb => Option.some.inj hb ▸ ha
  obtain ⟨P, hP, hP1, hP2⟩ := samplePerturbationsT_at hT h ha' true rs ts hM hd
  obtain ⟨Q, hQ, hQ1, hQ2⟩ := samplePerturbationsT_at hT h ha' false rs ts hM hd
  refine ⟨P, Q, hP, hP1, hQ, hQ1, fun k hu => ?_⟩
  have c := C48_noise (fun _ : Fin 1 => matAt 4 4 T (bidx sT [k])) (fun _ => ⟨vecAt 3 dt [k], da.get [k], vecAt 3 o [k]⟩) rs ts _ hu 0
  have g := fun perp hr => C48_rigid (fun _ : Fin 1 => matAt 4 4 T (bidx sT [k])) (fun _ => ⟨vecAt 3 dt [k], da.get [k], vecAt 3 o [k]⟩) rs ts
    (some (vecAt 3 a (bidx sa [k]))) perp 0 hr (fun b hb => Option.some.inj hb ▸ hu) (fun h => absurd h (by simp))
  rw [hP2, hQ2]
  refine ⟨fun X hX => ?_, c.2⟩
  rcases List.mem_pair.1 hX with rfl | rfl
  · rw [hP2]
    exact ⟨c.1 true, g true⟩
  · rw [hQ2]
    exact ⟨c.1 false, g false⟩

/-- C129, without an axis: row `k` is turned about the direction of its own drawn vector. -/
theorem C129_random_axis {sT : Shape} (hT : bshape sT [n] = .ok [n]) (rs ts : ℝ) (perp : Bool) {T dt da o : Tn ℝ}
    (hM : HasMat T sT 4 4 (flTag d v)) (hd : Draws dt da o n (flTag d v)) :
    ∃ P, samplePerturbationsT T n rs ts none perp dt da o = .ok P ∧ HasMat P [n] 4 4 (flTag d v) ∧
      ∀ k : Fin n, vecAt 3 o [k] ≠ 0 → (∃ u, IsUnitV u ∧ vecAt 3 o [k] = vlen (vecAt 3 o [k]) • u ∧
          rotPart (matAt 4 4 P [k]) = rotAbout u (da.get [k] * rs) * rotPart (matAt 4 4 T (bidx sT [k])) ∧
          posPart (matAt 4 4 P [k]) - posPart (matAt 4 4 T (bidx sT [k])) = ts • vecAt 3 dt [k]) ∧
        (IsRigid (matAt 4 4 T (bidx sT [k])) → IsRigid (matAt 4 4 P [k])) := by
  obtain ⟨P, hP, hP1, hP2⟩ := samplePerturbationsT_at hT (bshape_nil_left [n]) (axis := none) (fun a h => absurd h (by simp)) perp rs ts hM hd
  refine ⟨P, hP, hP1, fun k hk => ?_⟩
  rw [hP2]
  exact ⟨C48_noise_random_axis _ (fun _ => ⟨vecAt 3 dt [k], da.get [k], vecAt 3 o [k]⟩) rs ts perp 0 hk,
    fun hr => C48_rigid _ _ rs ts _ perp 0 hr (fun a h => absurd h (by simp [axisRow])) fun _ => hk⟩

theorem bshape_two {m n : ℕ} (h1 : m ≠ n) (h2 : m ≠ 1) (h3 : n ≠ 1) : bshape [m] [n] = .error .runtimeError := by
  simp [bshape, bshapeR, h1, h2, h3, ok_bind, error_bind]

theorem bin_VB_error (f : ℝ → ℝ → ℝ) (t : Tag) {s s' : Shape} (n : ℕ) (a : List ℕ → Fin n → ℝ) (b : List ℕ → Fin n → ℝ)
    (h : bshape s s' = .error .runtimeError) : bin f (ofV t s n a) (ofV t s' n b) = .error .runtimeError := by
  rw [bin, ofV_shape, ofV_shape]
  have : bshape (s ++ [n]) (s' ++ [n]) = .error .runtimeError := by
    rw [bshape] at h ⊢
    simp only [List.reverse_append, List.reverse_cons, List.reverse_nil, List.nil_append, List.singleton_append, bshapeR, if_true]
    cases h' : bshapeR s.reverse s'.reverse with
    | error e => rw [h', error_bind] at h; cases h; simp [error_bind]
    | ok r => rw [h'] at h; exact absurd h (by simp [ok_bind])
  rw [this]
  rfl

theorem matmulT_sizes (t : Tag) {s s' : Shape} (n k m : ℕ) (f : List ℕ → Fin n → Fin k → ℝ)
    (g : List ℕ → Fin k → Fin m → ℝ) (h : bshape s s' = .error .runtimeError) :
    matmulT (ofM t s n k f) (ofM t s' k m g) = .error .runtimeError := by
  rw [matmulT]
  simp only [ofM_shape, shape_rev2, ofM_tag, if_true, List.reverse_reverse, h, error_bind]

/-- C129: a tensor of `m` transforms, `m` neither 1 nor the number of perturbations, raises RuntimeError, and so does an axis
tensor of `m` rows from which the translation is to be freed. -/
theorem C129_sizes {m : ℕ} (h1 : m ≠ 1) (hn : m ≠ n) (rs ts : ℝ) {dt da o : Tn ℝ} (hd : Draws dt da o n (flTag d v)) :
    (∀ T, HasMat T [m] 4 4 (flTag d v) → ∀ perp, samplePerturbationsT T n rs ts none perp dt da o = .error .runtimeError) ∧
    (∀ T, HasMat T [m] 4 4 (flTag d v) → ∀ sa a, bshape sa [n] = .ok [n] → HasVec a sa 3 (flTag d v) → ∀ perp,
      samplePerturbationsT T n rs ts (some a) perp dt da o = .error .runtimeError) ∧
    (∀ T sT, HasMat T sT 4 4 (flTag d v) → ∀ a, HasVec a [m] 3 (flTag d v) →
      samplePerturbationsT T n rs ts (some a) true dt da o = .error .runtimeError) := by
  have key : ∀ T, HasMat T [m] 4 4 (flTag d v) → ∀ sa axis, bshape sa [n] = .ok [n] →
      (∀ a, axis = some a → HasVec a sa 3 (flTag d v)) → ∀ perp, samplePerturbationsT T n rs ts axis perp dt da o = .error .runtimeError := by
    intro T hT sa axis hb ha perp
    obtain ⟨sb, f, hb, hA, hf⟩ := axisAndShift_V hb ha perp ts (vecAt 3 dt) (vecAt 3 o) da.get
    have he : repeatT (eye4 (flTag d v)) [n, 1, 1] = _ := eyes_M (flTag d v) [n]
    rw [samplePerturbationsT, hT.2, he, ok_bind, hd.1.eq, hd.2.eq, hd.3.eq, map_V, map_S]
    simp only
    rw [hA, ok_bind]
    simp only
    have hr := rotBlock_M d v [m] fun i r c => matAt 4 4 T i r c
    rw [axisAndAngleToMatrix33_V d v hb, ok_bind, hT.eq, hr, ok_bind]
    by_cases h : n = 1
    · subst h
      have e : bshape [1] [m] = .ok [m] := bshape_snoc (bshape_self []) (.inr (.inl ⟨rfl, rfl⟩))
      rw [matmulT_MB _ _ _ _ _ _ e, ok_bind, setBlock]
      simp only [ofM_shape, shape_rev2, List.reverse_reverse, ofM_tag]
      rw [if_pos (by omega), valueFor]
      simp only [ofM_shape, List.length_append, List.length_cons, List.length_nil, Nat.sub_self, List.take_zero, List.all_nil, if_true]
      rw [expand, if_neg]
      · rfl
      · show ¬bshape [m, 3, 3] [1, 3, 3] = .ok [1, 3, 3]
        have e3 : bshape [m, 3, 3] [1, 3, 3] = .ok [m, 3, 3] :=
          bshape_snoc (s := [m, 3]) (t := [1, 3]) (r := [m, 3]) (bshape_snoc (s := [m]) (t := [1]) (r := [m])
            (bshape_snoc (bshape_self []) (.inr (.inr ⟨rfl, rfl⟩))) (.inl ⟨rfl, rfl⟩)) (.inl ⟨rfl, rfl⟩)
        rw [e3]
        intro hc
        exact h1 (List.cons.inj (Except.ok.inj hc)).1
    · rw [matmulT_sizes _ _ _ _ _ _ (bshape_two (Ne.symm hn) h h1), error_bind]
  refine ⟨fun T hT perp => key T hT [] none (bshape_nil_left _) (fun a h => absurd h (by simp)) perp,
    fun T hT sa a hb ha perp => key T hT sa (some a) hb (fun b hb => Option.some.inj hb ▸ ha) perp, fun T sT hT a ha => ?_⟩
  have he : repeatT (eye4 (flTag d v)) [n, 1, 1] = _ := eyes_M (flTag d v) [n]
  rw [samplePerturbationsT, hT.2, he, ok_bind, hd.1.eq, hd.2.eq, hd.3.eq, map_V, map_S]
  simp only [axisAndShift, if_true]
  have e := congrArg (alongT (ofV (flTag d v) [n] 3 fun i k => vecAt 3 dt i k * ts)) ha.eq
  by_cases h : n = 1
  · subst h
    have hb : bshape [1] [m] = .ok [m] := bshape_snoc (bshape_self []) (.inr (.inl ⟨rfl, rfl⟩))
    have e' := e
    conv_rhs at e' => rw [alongT, mul, bin_VB _ _ _ _ _ hb, ok_bind, if_pos (by rfl), sumKeep_V, ok_bind, bin_1VB _ _ _ _ _ (bshape_self _)]
    rw [e', ok_bind, inPlace, bin_VB _ _ _ _ _ hb, ok_bind, if_neg]
    · rfl
    · intro hc
      exact h1 (List.cons.inj hc).1
  · conv_rhs at e => rw [alongT, mul, bin_VB_error _ _ _ _ _ (bshape_two (Ne.symm hn) h h1), error_bind]
    rw [e]
    rfl

/-! ## Concrete cases -/

/-- three perturbations of one transform about one axis, and of three transforms about three axes -/
example : bshape [] [3] = .ok [3] ∧ bshape [1] [3] = .ok [3] ∧ bshape [3] [3] = .ok [3] := by decide
example (m : List ℕ → Fin 4 → Fin 4 → ℝ) : HasMat (ofM (flTag .f64 cpu) [3] 4 4 m) [3] 4 4 (flTag .f64 cpu) ∧
    HasVec (ofV (flTag .f64 cpu) [] 3 fun _ => ![3/5, 0, 4/5]) [] 3 (flTag .f64 cpu) ∧
    Draws (ofV (flTag .f64 cpu) [3] 3 fun i _ => (i.headD 0 : ℝ)) (ofFn (flTag .f64 cpu) [3] fun _ => 1)
      (ofV (flTag .f64 cpu) [3] 3 fun _ => ![1, 0, 2]) 3 (flTag .f64 cpu) :=
  ⟨⟨rfl, rfl⟩, ⟨rfl, rfl⟩, ⟨rfl, rfl⟩, ⟨rfl, rfl⟩, ⟨rfl, rfl⟩⟩
/-- the transform of row 2 is the third one if there are three, the only one if there is one -/
example : bidx [3] [2] = [2] ∧ bidx [1] [2] = [0] ∧ bidx [] [2] = [] := by decide

end PK
